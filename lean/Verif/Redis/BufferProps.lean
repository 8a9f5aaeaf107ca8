import Verif.Redis.Buffer
/-
C193, C194: resp::buffer is a string of bytes.
-/
namespace Ltio.Redis.Buffer

variable {E : Nat → Bytes} {J : Nat → Nat → UInt8}

structure BufOK (E : Nat → Bytes) (heap : Nat → Option Bytes) (i : Nat) (b : Buf) : Prop where
  small : b.small.length = 64
  kind : (b.cap = 0 ∧ ((b.data = .null ∧ b.size = 0) ∨ ∃ k off, b.data = .ext k off ∧ off + b.size ≤ (E k).length)) ∨
    (b.cap = 64 ∧ b.data = .small i ∧ b.size ≤ 64) ∨
    (∃ h x, 64 < b.cap ∧ b.data = .heap h ∧ heap h = some x ∧ x.length = b.cap ∧ b.size ≤ b.cap)

structure OK (E : Nat → Bytes) (s : S) : Prop where
  buf : ∀ i b, s.bufs i = some b → BufOK E s.heap i b
  own : ∀ i j bi bj h, s.bufs i = some bi → s.bufs j = some bj → bi.data = .heap h → bj.data = .heap h → i = j
  heap : ∀ h x, s.heap h = some x → h < s.next ∧ ∃ i b, s.bufs i = some b ∧ b.data = .heap h

theorem junk_length (h n : Nat) : (junk J h n).length = n := by simp [junk]

/-- Changing some buffers and their blocks leaves the others alone. -/
theorem OK.local {s s' : S} (ok : OK E s) (M : Nat → Prop) (h1 : ∀ k, ¬ M k → s'.bufs k = s.bufs k)
    (h2 : ∀ h, (∀ k b, M k → s.bufs k = some b → b.data ≠ .heap h) → h < s.next → s'.heap h = s.heap h)
    (h3 : ∀ k b, M k → s'.bufs k = some b → BufOK E s'.heap k b)
    (h4 : ∀ k b h, M k → s'.bufs k = some b → b.data = .heap h →
      (∃ k0 b0, M k0 ∧ s.bufs k0 = some b0 ∧ b0.data = .heap h) ∨ s.next ≤ h)
    (h5 : ∀ i j bi bj h, M i → M j → s'.bufs i = some bi → s'.bufs j = some bj → bi.data = .heap h → bj.data = .heap h → i = j)
    (h6 : ∀ h x, s'.heap h = some x → h < s'.next ∧ ((∃ k b, M k ∧ s'.bufs k = some b ∧ b.data = .heap h) ∨
      (s.heap h = some x ∧ ∀ k b, M k → s.bufs k = some b → b.data ≠ .heap h))) :
    OK E s' ∧ ∀ k, ¬ M k → s'.content E k = s.content E k := by
  have hk : ∀ k b h, ¬ M k → s.bufs k = some b → b.data = .heap h → s'.heap h = s.heap h := by
    intro k b h hm hb hd
    apply h2 h
    · intro k' b' hm' hb' hd'
      exact hm (ok.own k k' b b' h hb hb' hd hd' ▸ hm')
    · rcases (ok.buf k b hb).kind with ⟨_, ⟨e, _⟩ | ⟨_, _, e, _⟩⟩ | ⟨_, e, _⟩ | ⟨h', x, _, e, hx, _⟩
      · rw [e] at hd; simp at hd
      · rw [e] at hd; simp at hd
      · rw [e] at hd; simp at hd
      · rw [e] at hd; simp only [Ptr.heap.injEq] at hd; subst hd; exact (ok.heap _ _ hx).1
  refine ⟨⟨?_, ?_, ?_⟩, ?_⟩
  · intro i b hb
    by_cases hm : M i
    · exact h3 i b hm hb
    · rw [h1 i hm] at hb
      have hok := ok.buf i b hb
      refine ⟨hok.small, ?_⟩
      rcases hok.kind with e | e | ⟨h, x, e1, e2, e3, e4⟩
      · exact .inl e
      · exact .inr (.inl e)
      · exact .inr (.inr ⟨h, x, e1, e2, (hk i b h hm hb e2).trans e3, e4⟩)
  · intro i j bi bj h hi hj di dj
    by_cases mi : M i
    · by_cases mj : M j
      · exact h5 i j bi bj h mi mj hi hj di dj
      · exfalso
        rw [h1 j mj] at hj
        rcases h4 i bi h mi hi di with ⟨k0, b0, m0, hb0, d0⟩ | hn
        · exact mj (ok.own j k0 bj b0 h hj hb0 dj d0 ▸ m0)
        · rcases (ok.buf j bj hj).kind with ⟨_, ⟨e, _⟩ | ⟨_, _, e, _⟩⟩ | ⟨_, e, _⟩ | ⟨h', x, _, e, hx, _⟩
          · rw [e] at dj; simp at dj
          · rw [e] at dj; simp at dj
          · rw [e] at dj; simp at dj
          · rw [e] at dj; simp only [Ptr.heap.injEq] at dj; subst dj
            have := (ok.heap _ _ hx).1; omega
    · rw [h1 i mi] at hi
      by_cases mj : M j
      · exfalso
        rcases h4 j bj h mj hj dj with ⟨k0, b0, m0, hb0, d0⟩ | hn
        · exact mi (ok.own i k0 bi b0 h hi hb0 di d0 ▸ m0)
        · rcases (ok.buf i bi hi).kind with ⟨_, ⟨e, _⟩ | ⟨_, _, e, _⟩⟩ | ⟨_, e, _⟩ | ⟨h', x, _, e, hx, _⟩
          · rw [e] at di; simp at di
          · rw [e] at di; simp at di
          · rw [e] at di; simp at di
          · rw [e] at di; simp only [Ptr.heap.injEq] at di; subst di
            have := (ok.heap _ _ hx).1; omega
      · rw [h1 j mj] at hj
        exact ok.own i j bi bj h hi hj di dj
  · intro h x hx
    obtain ⟨hl, hc⟩ := h6 h x hx
    refine ⟨hl, ?_⟩
    rcases hc with ⟨k, b, _, hb, hd⟩ | ⟨hs, hn⟩
    · exact ⟨k, b, hb, hd⟩
    · obtain ⟨_, k, b, hb, hd⟩ := ok.heap h x hs
      have hm : ¬ M k := fun hm => hn k b hm hb hd
      exact ⟨k, b, (h1 k hm).trans hb, hd⟩
  · intro k hm
    simp only [S.content, h1 k hm]
    cases hb : s.bufs k with
    | none => rfl
    | some b =>
      simp only [Option.bind_some]
      rcases (ok.buf k b hb).kind with ⟨_, ⟨e, _⟩ | ⟨_, _, e, _⟩⟩ | ⟨_, e, _⟩ | ⟨h', x, _, e, hx, _⟩
      · rw [e]; rfl
      · rw [e]; rfl
      · rw [e]; simp only [S.read, h1 k hm]
      · rw [e]; simp only [S.read, hk k b h' hm hb e]

/-- The bytes a buffer has room for, if it owns memory. -/
def store (s : S) (b : Buf) : Option Bytes :=
  match b.data with
  | .small _ => some b.small
  | .heap h => s.heap h
  | _ => none

theorem OK.store {s : S} (ok : OK E s) {i : Nat} {b : Buf} (hb : s.bufs i = some b) (hc : b.cap ≠ 0) :
    ∃ st, store s b = some st ∧ st.length = b.cap ∧ b.size ≤ b.cap ∧ s.content E i = some (st.take b.size) := by
  have h := ok.buf i b hb
  rcases h.kind with ⟨e, _⟩ | ⟨e1, e2, e3⟩ | ⟨h', x, e1, e2, e3, e4, e5⟩
  · exact absurd e hc
  · refine ⟨b.small, by simp [Buffer.store, e2], by rw [h.small, e1], by omega, ?_⟩
    simp only [S.content, hb, Option.bind_some, e2, S.read]
    rw [if_pos (by rw [h.small]; exact e3)]
  · refine ⟨x, by simp [Buffer.store, e2, e3], e4, e5, ?_⟩
    simp only [S.content, hb, Option.bind_some, e2, S.read, e3]
    rw [if_pos (by omega)]

theorem splice_length {l x : Bytes} {off : Nat} (h : off + x.length ≤ l.length) : (splice l off x).length = l.length := by
  simp [splice]; omega

/-- Writing into a buffer's own memory. -/
theorem OK.write {s : S} (ok : OK E s) {i : Nat} {b : Buf} (hb : s.bufs i = some b) (hc : b.cap ≠ 0) {st : Bytes}
    (hst : Buffer.store s b = some st) {off : Nat} {x : Bytes} (hl : off + x.length ≤ b.cap) :
    ∃ s' b', s.write b.data off x = some s' ∧ OK E s' ∧ s'.bufs i = some b' ∧ b'.cap = b.cap ∧ b'.size = b.size ∧ b'.data = b.data ∧
      Buffer.store s' b' = some (splice st off x) ∧ (∀ k, k ≠ i → s'.bufs k = s.bufs k) ∧ (∀ k, k ≠ i → s'.content E k = s.content E k) := by
  by_cases hx : x = []
  · subst hx
    refine ⟨s, b, by simp [S.write], ok, hb, rfl, rfl, rfl, by rw [hst]; simp [splice], fun _ _ => rfl, fun _ _ => rfl⟩
  have h := ok.buf i b hb
  rcases h.kind with ⟨e, _⟩ | ⟨e1, e2, e3⟩ | ⟨h', y, e1, e2, e3, e4, e5⟩
  · exact absurd e hc
  · have hs : st = b.small := by simpa [Buffer.store, e2] using hst.symm
    subst hs
    have hlen : off + x.length ≤ b.small.length := by rw [h.small]; omega
    have hw : s.write b.data off x = some (s.set i { b with small := splice b.small off x }) := by
      simp only [S.write, if_neg hx, e2, hb, Option.bind_some, if_pos hlen]
    have loc := ok.local (s' := s.set i { b with small := splice b.small off x }) (fun k => k = i)
      (by intro k hk; simp only [S.set]; rw [if_neg hk])
      (fun _ _ _ => rfl)
      (by
        rintro k b' rfl hb'
        simp only [S.set, if_true, Option.some.injEq] at hb'
        subst hb'
        exact ⟨by rw [splice_length hlen]; exact h.small, .inr (.inl ⟨e1, e2, e3⟩)⟩)
      (by
        rintro k b' h0 rfl hb' hd
        simp only [S.set, if_true, Option.some.injEq] at hb'
        subst hb'
        simp only [e2] at hd; simp at hd)
      (by rintro i' j' _ _ _ rfl rfl _ _ _ _; rfl)
      (by
        intro h0 x0 hh
        refine ⟨(ok.heap h0 x0 hh).1, .inr ⟨hh, ?_⟩⟩
        rintro k b' rfl hb' hd
        rw [hb, Option.some.injEq] at hb'; subst hb'
        rw [e2] at hd; simp at hd)
    exact ⟨_, { b with small := splice b.small off x }, hw, loc.1, by simp only [S.set, if_true], rfl, rfl, rfl, by simp [Buffer.store, e2],
      fun k hk => by simp only [S.set]; rw [if_neg hk], fun k hk => loc.2 k hk⟩
  · have hs : st = y := by simpa [Buffer.store, e2, e3] using hst.symm
    subst hs
    have hlen : off + x.length ≤ st.length := by omega
    have hw : s.write b.data off x = some { s with heap := fun k => if k = h' then some (splice st off x) else s.heap k } := by
      simp only [S.write, if_neg hx, e2, e3, Option.bind_some, if_pos hlen]
    have loc := ok.local (s' := { s with heap := fun k => if k = h' then some (splice st off x) else s.heap k }) (fun k => k = i)
      (fun _ _ => rfl)
      (by
        intro h0 hn _
        have : h0 ≠ h' := by rintro rfl; exact hn i b rfl hb e2
        simp only []; rw [if_neg this])
      (by
        rintro k b' rfl hb'
        have hb' : s.bufs k = some b' := hb'
        rw [hb, Option.some.injEq] at hb'; subst hb'
        exact ⟨h.small, .inr (.inr ⟨h', splice st off x, e1, e2, by simp, by rw [splice_length hlen]; exact e4, e5⟩)⟩)
      (by
        rintro k b' h0 rfl hb' hd
        exact .inl ⟨k, b', rfl, hb', hd⟩)
      (by rintro i' j' _ _ _ rfl rfl _ _ _ _; rfl)
      (by
        intro h0 x0 hh
        simp only [] at hh ⊢
        by_cases e : h0 = h'
        · subst e
          exact ⟨(ok.heap h0 st e3).1, .inl ⟨i, b, rfl, hb, e2⟩⟩
        · rw [if_neg e] at hh
          refine ⟨(ok.heap h0 x0 hh).1, .inr ⟨hh, ?_⟩⟩
          rintro k b' rfl hb' hd
          rw [hb, Option.some.injEq] at hb'; subst hb'
          rw [e2] at hd; simp only [Ptr.heap.injEq] at hd; exact e hd.symm)
    exact ⟨_, _, hw, loc.1, hb, rfl, rfl, rfl, by simp [Buffer.store, e2], fun _ _ => rfl, fun k hk => loc.2 k hk⟩

/-- Another size within the room there is. -/
theorem OK.resize {s : S} (ok : OK E s) {i : Nat} {b : Buf} (hb : s.bufs i = some b) (hc : b.cap ≠ 0) {st : Bytes}
    (hst : Buffer.store s b = some st) {n : Nat} (hn : n ≤ b.cap) :
    OK E (s.set i { b with size := n }) ∧ (s.set i { b with size := n }).content E i = some (st.take n) ∧
      ∀ k, k ≠ i → (s.set i { b with size := n }).content E k = s.content E k := by
  have h := ok.buf i b hb
  have loc := ok.local (s' := s.set i { b with size := n }) (fun k => k = i)
      (by intro k hk; simp only [S.set]; rw [if_neg hk])
      (fun _ _ _ => rfl)
      (by
        rintro k b' rfl hb'
        simp only [S.set, if_true, Option.some.injEq] at hb'
        subst hb'
        refine ⟨h.small, ?_⟩
        rcases h.kind with ⟨e, _⟩ | ⟨e1, e2, e3⟩ | ⟨h', y, e1, e2, e3, e4, e5⟩
        · exact absurd e hc
        · exact .inr (.inl ⟨e1, e2, by simp only []; omega⟩)
        · exact .inr (.inr ⟨h', y, e1, e2, e3, e4, hn⟩))
      (by
        rintro k b' h0 rfl hb' hd
        simp only [S.set, if_true, Option.some.injEq] at hb'
        subst hb'
        exact .inl ⟨k, b, rfl, hb, hd⟩)
      (by rintro i' j' _ _ _ rfl rfl _ _ _ _; rfl)
      (by
        intro h0 x0 hh
        refine ⟨(ok.heap h0 x0 hh).1, ?_⟩
        by_cases e : b.data = .heap h0
        · exact .inl ⟨i, { b with size := n }, rfl, by simp only [S.set, if_true], e⟩
        · refine .inr ⟨hh, ?_⟩
          rintro k b' rfl hb'
          rw [hb, Option.some.injEq] at hb'; subst hb'
          exact e)
  refine ⟨loc.1, ?_, fun k hk => loc.2 k hk⟩
  have hb' : (s.set i { b with size := n }).bufs i = some { b with size := n } := by simp only [S.set, if_true]
  obtain ⟨st', h1, _, _, h4⟩ := loc.1.store hb' hc
  rw [h4]
  have : st' = st := by
    have e : Buffer.store (s.set i { b with size := n }) { b with size := n } = Buffer.store s b := rfl
    rw [e, hst, Option.some.injEq] at h1; exact h1.symm
  rw [this]

/-- Another buffer in the place of `i`, whose block has been freed. -/
theorem OK.put {s s1 : S} (ok : OK E s) (i : Nat) (h1 : ∀ k, k ≠ i → s1.bufs k = s.bufs k)
    (h2 : ∀ h, h ≠ s.next → (∀ b, s.bufs i = some b → b.data ≠ .heap h) → s1.heap h = s.heap h)
    (h3 : ∀ h b, s.bufs i = some b → b.data = .heap h → s1.heap h = none)
    (h4 : ∀ b, s1.bufs i = some b → BufOK E s1.heap i b ∧ ∀ h, b.data = .heap h → h = s.next)
    (h5 : s.next ≤ s1.next)
    (h6 : ∀ x, s1.heap s.next = some x → s.next < s1.next ∧ ∃ b, s1.bufs i = some b ∧ b.data = .heap s.next) :
    OK E s1 ∧ ∀ k, k ≠ i → s1.content E k = s.content E k := by
  refine ok.local (s' := s1) (fun k => k = i) (fun k hk => h1 k hk) ?_ ?_ ?_ ?_ ?_
  · intro h hn hl
    exact h2 h (by omega) (fun b hb => hn i b rfl hb)
  · rintro k b rfl hb
    exact (h4 b hb).1
  · rintro k b h rfl hb hd
    exact .inr (Nat.le_of_eq ((h4 b hb).2 h hd).symm)
  · rintro a b _ _ _ rfl rfl _ _ _ _; rfl
  · intro h x hx
    by_cases e : h = s.next
    · subst e
      obtain ⟨l, b, hb, hd⟩ := h6 x hx
      exact ⟨l, .inl ⟨i, b, rfl, hb, hd⟩⟩
    · have hno : ∀ b, s.bufs i = some b → b.data ≠ .heap h := by
        intro b hb hd
        rw [h3 h b hb hd] at hx; simp at hx
      rw [h2 h e hno] at hx
      refine ⟨by have := (ok.heap h x hx).1; omega, .inr ⟨hx, ?_⟩⟩
      rintro k b rfl hb; exact hno b hb

/-- What `dealloc` does. -/
theorem OK.dealloc {s : S} (ok : OK E s) {i : Nat} {b : Buf} (hb : s.bufs i = some b) :
    ∃ s1, s.dealloc i b = some s1 ∧ s1.next = s.next ∧ (∀ k, k ≠ i → s1.bufs k = s.bufs k) ∧
      (∀ h, b.data = .heap h → s1.heap h = none) ∧ (∀ h, b.data ≠ .heap h → s1.heap h = s.heap h) ∧ (∃ b', s1.bufs i = some b') := by
  have h := ok.buf i b hb
  rcases h.kind with ⟨e, e'⟩ | ⟨e1, e2, e3⟩ | ⟨h', y, e1, e2, e3, e4, e5⟩
  · refine ⟨s, by simp [S.dealloc, e], rfl, fun _ _ => rfl, ?_, fun _ _ => rfl, b, hb⟩
    intro h0 hd
    rcases e' with ⟨e', _⟩ | ⟨_, _, e', _⟩ <;> rw [e'] at hd <;> simp at hd
  · refine ⟨s, by simp [S.dealloc, e1], rfl, fun _ _ => rfl, ?_, fun _ _ => rfl, b, hb⟩
    intro h0 hd; rw [e2] at hd; simp at hd
  · refine ⟨({ s with heap := fun k => if k = h' then none else s.heap k } : S).set i { b with data := .null }, ?_, rfl, ?_, ?_, ?_, ?_⟩
    · simp only [S.dealloc, e2, S.free, e3, Option.bind_some]
      rw [if_pos ⟨e1, by simp⟩]
    · intro k hk; simp only [S.set]; rw [if_neg hk]
    · intro h0 hd; rw [e2] at hd; simp only [Ptr.heap.injEq] at hd; subst hd; simp [S.set]
    · intro h0 hd
      simp only [S.set]; rw [if_neg]; rintro rfl; exact hd e2
    · exact ⟨{ b with data := .null }, by simp only [S.set, if_true]⟩

/-- A reference to memory of somebody else, or to nothing, in the place of `i`. -/
theorem OK.put_ref {s s1 : S} (ok : OK E s) {i : Nat} {b : Buf} (hb : s.bufs i = some b) (hn : s1.next = s.next)
    (h1 : ∀ k, k ≠ i → s1.bufs k = s.bufs k) (h2 : ∀ h, b.data = .heap h → s1.heap h = none)
    (h3 : ∀ h, b.data ≠ .heap h → s1.heap h = s.heap h) {b1 : Buf} (hb1 : s1.bufs i = some b1) (hs : b1.small.length = 64)
    (hc : b1.cap = 0) (hd : (b1.data = .null ∧ b1.size = 0) ∨ ∃ k off, b1.data = .ext k off ∧ off + b1.size ≤ (E k).length) :
    OK E s1 ∧ ∀ k, k ≠ i → s1.content E k = s.content E k := by
  refine ok.put i h1 ?_ ?_ ?_ (by omega) ?_
  · intro h _ hno; exact h3 h (hno b hb)
  · intro h b' hb' hd'; rw [hb, Option.some.injEq] at hb'; subst hb'; exact h2 h hd'
  · intro b' hb'
    rw [hb1, Option.some.injEq] at hb'; subst hb'
    refine ⟨⟨hs, .inl ⟨hc, hd⟩⟩, ?_⟩
    intro h hd'
    rcases hd with ⟨e', _⟩ | ⟨_, _, e', _⟩ <;> rw [e'] at hd' <;> simp at hd'
  · intro x hx
    exfalso
    by_cases e : b.data = .heap s.next
    · rw [h2 _ e] at hx; simp at hx
    · rw [h3 _ e] at hx
      have := (ok.heap _ _ hx).1; omega

/-- Its own small room in the place of `i`. -/
theorem OK.put_small {s s1 : S} (ok : OK E s) {i : Nat} {b : Buf} (hb : s.bufs i = some b) (hn : s1.next = s.next)
    (h1 : ∀ k, k ≠ i → s1.bufs k = s.bufs k) (h2 : ∀ h, b.data = .heap h → s1.heap h = none)
    (h3 : ∀ h, b.data ≠ .heap h → s1.heap h = s.heap h) {b1 : Buf} (hb1 : s1.bufs i = some b1) (hs : b1.small.length = 64)
    (hc : b1.cap = 64) (hd : b1.data = .small i) (hz : b1.size ≤ 64) :
    OK E s1 ∧ ∀ k, k ≠ i → s1.content E k = s.content E k := by
  refine ok.put i h1 ?_ ?_ ?_ (by omega) ?_
  · intro h _ hno; exact h3 h (hno b hb)
  · intro h b' hb' hd'; rw [hb, Option.some.injEq] at hb'; subst hb'; exact h2 h hd'
  · intro b' hb'
    rw [hb1, Option.some.injEq] at hb'; subst hb'
    refine ⟨⟨hs, .inr (.inl ⟨hc, hd, hz⟩)⟩, ?_⟩
    intro h hd'
    rw [hd] at hd'; simp at hd'
  · intro x hx
    exfalso
    by_cases e : b.data = .heap s.next
    · rw [h2 _ e] at hx; simp at hx
    · rw [h3 _ e] at hx
      have := (ok.heap _ _ hx).1; omega

/-- A block just allocated in the place of `i`. -/
theorem OK.put_large {s s1 : S} (ok : OK E s) {i : Nat} (hn : s1.next = s.next + 1)
    (h1 : ∀ k, k ≠ i → s1.bufs k = s.bufs k) (h2 : ∀ h b, s.bufs i = some b → b.data = .heap h → s1.heap h = none)
    (h3 : ∀ h, h ≠ s.next → (∀ b, s.bufs i = some b → b.data ≠ .heap h) → s1.heap h = s.heap h) {b1 : Buf} (hb1 : s1.bufs i = some b1) (hs : b1.small.length = 64)
    {x : Bytes} (hx : s1.heap s.next = some x) (hc : 64 < b1.cap) (hl : x.length = b1.cap) (hd : b1.data = .heap s.next) (hz : b1.size ≤ b1.cap) :
    OK E s1 ∧ ∀ k, k ≠ i → s1.content E k = s.content E k := by
  refine ok.put i h1 h3 h2 ?_ (by omega) ?_
  · intro b' hb'
    rw [hb1, Option.some.injEq] at hb'; subst hb'
    refine ⟨⟨hs, .inr (.inr ⟨s.next, x, hc, hd, hx, hl, hz⟩)⟩, ?_⟩
    intro h hd'
    rw [hd] at hd'; simpa using hd'.symm
  · intro y _
    exact ⟨by omega, b1, hb1, hd⟩

theorem OK.content {s : S} (ok : OK E s) {i : Nat} {b : Buf} (hb : s.bufs i = some b) :
    ∃ x, s.content E i = some x ∧ x.length = b.size := by
  by_cases hc : b.cap = 0
  · rcases (ok.buf i b hb).kind with ⟨_, ⟨e1, e2⟩ | ⟨k, off, e1, e2⟩⟩ | ⟨e1, _⟩ | ⟨h', y, e1, _⟩
    · exact ⟨[], by simp [S.content, hb, e1, e2, S.read], by simp [e2]⟩
    · refine ⟨((E k).drop off).take b.size, ?_, by simp; omega⟩
      simp only [S.content, hb, Option.bind_some, e1, S.read]
      rw [if_pos e2]
    · omega
    · omega
  · obtain ⟨st, _, h2, h3, h4⟩ := ok.store hb hc
    exact ⟨_, h4, by simp; omega⟩

/-- Referenced data is the same in every state. -/
theorem read_ref {s t : S} {i : Nat} {b : Buf} {hp : Nat → Option Bytes} (h : BufOK E hp i b) (hc : b.cap = 0) :
    s.read E b.data b.size = t.read E b.data b.size := by
  rcases h.kind with ⟨_, ⟨e1, e2⟩ | ⟨k, off, e1, e2⟩⟩ | ⟨e1, _⟩ | ⟨h', y, e1, _⟩
  · rw [e1]; rfl
  · rw [e1]; rfl
  · omega
  · omega

theorem splice_take {st x : Bytes} (h : x.length ≤ st.length) : (splice st 0 x).take x.length = x := by
  simp [splice]

/-- Filling a buffer that has just got its memory. -/
theorem OK.fill {s : S} (ok : OK E s) {i : Nat} {b : Buf} (hb : s.bufs i = some b) (hc : b.cap ≠ 0) {p : Ptr} {x : Bytes}
    (hr : s.read E p b.size = some x) (hx : x.length = b.size) :
    ∃ s2 b2, s.memcpy E b.data 0 p b.size = some s2 ∧ OK E s2 ∧ s2.bufs i = some b2 ∧ b2.cap = b.cap ∧ b2.size = b.size ∧ 
      s2.content E i = some x ∧ (∀ k, k ≠ i → s2.bufs k = s.bufs k) ∧ ∀ k, k ≠ i → s2.content E k = s.content E k := by
  obtain ⟨st, h1, h2, h3, _⟩ := ok.store hb hc
  obtain ⟨s2, b2, w1, w2, w3, w4, w5, w6, w7, w8, w9⟩ := ok.write hb hc h1 (off := 0) (x := x) (by omega)
  refine ⟨s2, b2, by simp only [S.memcpy, hr, Option.bind_some, w1], w2, w3, w4, w5, ?_, w8, w9⟩
  obtain ⟨st2, g1, g2, g3, g4⟩ := w2.store w3 (by omega)
  rw [w7, Option.some.injEq] at g1
  rw [g4, w5, ← hx, ← g1, splice_take (by omega)]

theorem le_round (n : Nat) : n ≤ round n := by unfold round; split <;> omega

theorem OK.reserve {s : S} (ok : OK E s) {i n : Nat} {b : Buf} (hb : s.bufs i = some b) (hp : b.cap = 0 → n = 0 ∨ b.size ≤ n) :
    ∃ s1 b1, s.reserve E J i n = some s1 ∧ OK E s1 ∧ s1.bufs i = some b1 ∧ b1.size = b.size ∧ n ≤ b1.cap ∧
      (∀ k, s1.content E k = s.content E k) ∧ ∀ k, k ≠ i → s1.bufs k = s.bufs k := by
  have h := ok.buf i b hb
  have hr := le_round n
  obtain ⟨x, hx, hxl⟩ := ok.content hb
  have hx' : s.read E b.data b.size = some x := by simpa [S.content, hb] using hx
  have fin : ∀ {s2 : S} (c : s2.content E i = some x) (o : ∀ k, k ≠ i → s2.content E k = s.content E k), ∀ k, s2.content E k = s.content E k := by
    intro s2 c o k
    by_cases e : k = i
    · subst e; rw [c, hx]
    · exact o k e
  by_cases hn : n > b.cap
  · by_cases hc : b.cap ≤ 64
    · by_cases hbig : round n > 64
      · -- a new block
        have hsz : b.size ≤ round n := by
          rcases h.kind with ⟨e, _⟩ | ⟨_, _, e⟩ | ⟨_, _, e, _⟩
          · have := hp e; omega
          · omega
          · omega
        let b1 : Buf := { b with cap := round n, data := .heap s.next }
        have loc := ok.put_large (s1 := (s.malloc (junk J s.next (round n))).set i b1) (i := i) rfl
          (by intro k hk; simp only [S.set, S.malloc]; rw [if_neg hk])
          (by
            intro h0 b' hb' hd
            rw [hb, Option.some.injEq] at hb'; subst hb'
            exfalso
            rcases h.kind with ⟨_, ⟨e, _⟩ | ⟨_, _, e, _⟩⟩ | ⟨_, e, _⟩ | ⟨_, _, e, _⟩
            · rw [e] at hd; simp at hd
            · rw [e] at hd; simp at hd
            · rw [e] at hd; simp at hd
            · omega)
          (by intro h0 hne _; simp only [S.set, S.malloc]; rw [if_neg hne])
          (b1 := b1) (by simp only [S.set, if_true]) h.small (x := junk J s.next (round n)) (by simp [S.set, S.malloc])
          hbig (junk_length _ _) rfl hsz
        have hread : ((s.malloc (junk J s.next (round n))).set i b1).read E b.data b.size = some x := by
          rcases h.kind with ⟨e, _⟩ | ⟨_, e, e'⟩ | ⟨_, _, e, _⟩
          · rw [← hx']; exact read_ref h e
          · rw [← hx', e]
            simp only [S.read, S.set, if_true, hb, Option.bind_some, b1]
          · omega
        obtain ⟨s2, b2, m1, m2, m3, m4, m5, m6, m7, m8⟩ := loc.1.fill (i := i) (b := b1) (by simp only [S.set, if_true])
          (by simp only [b1]; omega) hread hxl
        refine ⟨s2, b2, ?_, m2, m3, m5, by rw [m4]; exact hr, fin m6 (fun k hk => (m8 k hk).trans (loc.2 k hk)), ?_⟩
        · simp only [S.reserve, hb, Option.bind_some, if_pos hn, if_pos hc, if_pos hbig]; exact m1
        · intro k hk; rw [m7 k hk]; simp only [S.set, S.malloc]; rw [if_neg hk]
      · have h0 : b.cap = 0 := by
          rcases h.kind with ⟨e, _⟩ | ⟨e, _, _⟩ | ⟨_, _, e, _⟩ <;> omega
        have hsz : b.size ≤ 64 := by have := hp h0; omega
        let b1 : Buf := { b with cap := 64, data := .small i }
        have hnh : ∀ h, b.data ≠ .heap h := by
          intro h1 hd
          rcases h.kind with ⟨_, ⟨e, _⟩ | ⟨_, _, e, _⟩⟩ | ⟨_, e, _⟩ | ⟨_, _, e, _⟩
          · rw [e] at hd; simp at hd
          · rw [e] at hd; simp at hd
          · rw [e] at hd; simp at hd
          · omega
        have loc := ok.put_small (s1 := s.set i b1) (i := i) hb rfl
          (by intro k hk; simp only [S.set]; rw [if_neg hk])
          (fun h1 hd => absurd hd (hnh h1)) (fun _ _ => rfl)
          (b1 := b1) (by simp only [S.set, if_true]) h.small rfl rfl hsz
        obtain ⟨s2, b2, m1, m2, m3, m4, m5, m6, m7, m8⟩ := loc.1.fill (i := i) (b := b1) (by simp only [S.set, if_true])
          (by simp [b1]) ((read_ref h h0).trans hx') hxl
        refine ⟨s2, b2, ?_, m2, m3, m5, by rw [m4]; simp only [b1]; omega, fin m6 (fun k hk => (m8 k hk).trans (loc.2 k hk)), ?_⟩
        · simp only [S.reserve, hb, Option.bind_some, if_pos hn, if_pos hc, if_neg hbig, if_pos h0]; exact m1
        · intro k hk; rw [m7 k hk]; simp only [S.set]; rw [if_neg hk]
    · -- a bigger block
      rcases h.kind with ⟨e, _⟩ | ⟨e, _, _⟩ | ⟨h', y, e1, e2, e3, e4, e5⟩
      · omega
      · omega
      let z : Bytes := y.take (round n) ++ (junk J s.next (round n)).drop y.length
      have hz : z.length = round n := by simp [z, junk_length]; omega
      let b1 : Buf := { b with cap := round n, data := .heap s.next }
      have hne : h' ≠ s.next := by have := (ok.heap _ _ e3).1; omega
      have hre : s.realloc J b.data (round n) =
          some (({ s with heap := fun k => if k = h' then none else s.heap k } : S).malloc z) := by
        simp only [S.realloc, e2, e3, S.free, Option.bind_some, z]
      let s1 : S := (({ s with heap := fun k => if k = h' then none else s.heap k } : S).malloc z).set i b1
      have hb1 : s1.bufs i = some b1 := by simp only [s1, S.set, if_true]
      have loc := ok.put_large (s1 := s1) (i := i) rfl
          (by intro k hk; simp only [s1, S.set, S.malloc]; rw [if_neg hk])
          (by
            intro h0 b' hb' hd
            rw [hb, Option.some.injEq] at hb'; subst hb'
            rw [e2, Ptr.heap.injEq] at hd; subst hd
            simp only [s1, S.set, S.malloc]; rw [if_neg hne]; simp)
          (by
            intro h0 hne' hno
            have : h0 ≠ h' := by rintro rfl; exact hno b hb e2
            simp only [s1, S.set, S.malloc]; rw [if_neg hne', if_neg this])
          (b1 := b1) hb1 h.small (x := z) (by simp [s1, S.set, S.malloc])
          (by simp only [b1]; omega) hz rfl (by simp only [b1]; omega)
      refine ⟨s1, b1, ?_, loc.1, hb1, rfl, hr, fin ?_ loc.2, ?_⟩
      · simp only [S.reserve, hb, Option.bind_some, if_pos hn, if_neg hc, hre]; rfl
      · obtain ⟨st, g1, g2, g3, g4⟩ := loc.1.store hb1 (by simp only [b1]; omega)
        rw [g4]
        have : st = z := by simpa [Buffer.store, b1, s1, S.set, S.malloc] using g1.symm
        rw [this]
        have hx2 : x = y.take b.size := by
          rw [e2] at hx'
          simp only [S.read, e3, Option.bind_some] at hx'
          rw [if_pos (by omega)] at hx'
          simpa using hx'.symm
        rw [hx2]
        have : y.take (round n) = y := List.take_of_length_le (by omega)
        simp only [z, b1, this]
        rw [List.take_append_of_le_length (by omega)]
      · intro k hk; simp only [s1, S.set, S.malloc]; rw [if_neg hk]
  · exact ⟨s, b, by simp only [S.reserve, hb, Option.bind_some, if_neg hn], ok, hb, rfl, by omega, fun _ => rfl, fun _ _ => rfl⟩

theorem set_self {s : S} {i : Nat} {b : Buf} (hb : s.bufs i = some b) : s.set i b = s := by
  cases s
  simp only [S.set, S.mk.injEq, and_true, true_and]
  funext k
  split
  · rename_i h; subst h; exact hb.symm
  · rfl

/-- Adding bytes where there is room. -/
theorem OK.add {s : S} (ok : OK E s) {i : Nat} {b : Buf} (hb : s.bufs i = some b) {x : Bytes} (hl : b.size + x.length ≤ b.cap) :
    ∃ s2 b2, s.write b.data b.size x = some s2 ∧ s2.bufs i = some b2 ∧ (∀ k, k ≠ i → s2.bufs k = s.bufs k) ∧ b2.size = b.size ∧
      OK E (s2.set i { b2 with size := b2.size + x.length }) ∧
      (s2.set i { b2 with size := b2.size + x.length }).content E i = (s.content E i).map (· ++ x) ∧
      ∀ k, k ≠ i → (s2.set i { b2 with size := b2.size + x.length }).content E k = s.content E k := by
  by_cases hx : x = []
  · subst hx
    refine ⟨s, b, by simp [S.write], hb, fun _ _ => rfl, rfl, ?_⟩
    have : s.set i { b with size := b.size + ([] : Bytes).length } = s := set_self hb
    rw [this]
    exact ⟨ok, by simp, fun _ _ => rfl⟩
  have hpos : 0 < x.length := List.length_pos_iff.2 hx
  have hc : b.cap ≠ 0 := by omega
  obtain ⟨st, h1, h2, h3, h4⟩ := ok.store hb hc
  obtain ⟨s2, b2, w1, w2, w3, w4, w5, w6, w7, w8, w9⟩ := ok.write hb hc h1 (off := b.size) (x := x) hl
  obtain ⟨r1, r2, r3⟩ := w2.resize w3 (by omega) w7 (n := b2.size + x.length) (by omega)
  refine ⟨s2, b2, w1, w3, w8, w5, r1, ?_, fun k hk => (r3 k hk).trans (w9 k hk)⟩
  rw [r2, h4, Option.map_some, w5]
  congr 1
  simp only [splice]
  rw [List.take_append_of_le_length (by simp; omega)]
  rw [List.take_of_length_le (by simp; omega)]

theorem content_upd {s s' : S} {i : Nat} {x : Option Bytes} (h : s'.content E i = x) (ho : ∀ k, k ≠ i → s'.content E k = s.content E k) :
    s'.content E = upd (s.content E) i x := by
  funext k
  simp only [upd]
  split
  · rename_i e; subst e; exact h
  · rename_i e; exact ho k e

theorem some_of_ne {α : Type} {x : Option α} (h : x ≠ none) : ∃ b, x = some b := by
  cases x
  · exact absurd rfl h
  · exact ⟨_, rfl⟩

/-- A new reference. -/
theorem OK.new_ref {s : S} (ok : OK E s) {i : Nat} (hi : s.bufs i = none) {b1 : Buf} (hs : b1.small.length = 64) (hc : b1.cap = 0)
    (hd : (b1.data = .null ∧ b1.size = 0) ∨ ∃ k off, b1.data = .ext k off ∧ off + b1.size ≤ (E k).length) :
    OK E (s.set i b1) ∧ (∀ k, k ≠ i → (s.set i b1).content E k = s.content E k) ∧
      (s.set i b1).content E i = s.read E b1.data b1.size := by
  have loc := ok.put (s1 := s.set i b1) i (by intro k hk; simp only [S.set]; rw [if_neg hk]) (fun _ _ _ => rfl)
    (by intro h b hb; rw [hi] at hb; simp at hb)
    (by
      intro b hb
      simp only [S.set, if_true, Option.some.injEq] at hb
      subst hb
      refine ⟨⟨hs, .inl ⟨hc, hd⟩⟩, ?_⟩
      intro h hd'
      rcases hd with ⟨e', _⟩ | ⟨_, _, e', _⟩ <;> rw [e'] at hd' <;> simp at hd')
    (Nat.le_refl _)
    (by intro x hx; exact absurd (ok.heap _ _ hx).1 (Nat.lt_irrefl _))
  refine ⟨loc.1, loc.2, ?_⟩
  simp only [S.content, S.set, if_true, Option.bind_some]
  exact read_ref (i := i) (hp := s.heap) ⟨hs, .inl ⟨hc, hd⟩⟩ hc

/-- Data of another buffer can be read while buffer `i` is replaced. -/
theorem read_other {s s1 : S} {i j : Nat} {o : Buf} {x : Bytes} (hij : i ≠ j) (ho : s.bufs j = some o) (hx : s.content E j = some x)
    (h1 : s1.bufs j = s.bufs j) (h2 : s1.content E j = s.content E j) : s1.read E o.data o.size = some x := by
  have : s1.content E j = some x := h2.trans hx
  simpa [S.content, h1, ho] using this

theorem OK.copy {s : S} (ok : OK E s) {i j : Nat} (hi : s.bufs i = none) {o : Buf} (ho : s.bufs j = some o) :
    ∃ s', s.copy E J i j = some s' ∧ OK E s' ∧ s'.content E = upd (s.content E) i (s.content E j) := by
  have hij : i ≠ j := by rintro rfl; rw [hi] at ho; simp at ho
  have hj := ok.buf j o ho
  obtain ⟨x, hx, hxl⟩ := ok.content ho
  by_cases h0 : o.cap = 0
  · have hk : (o.data = .null ∧ o.size = 0) ∨ ∃ k off, o.data = .ext k off ∧ off + o.size ≤ (E k).length := by
      rcases hj.kind with ⟨_, e⟩ | ⟨e, _⟩ | ⟨_, _, e, _⟩
      · exact e
      · exfalso; omega
      · exfalso; omega
    obtain ⟨a, b, c⟩ := ok.new_ref hi (b1 := ⟨0, junk J i 64, o.data, o.size⟩) (junk_length _ _) rfl hk
    refine ⟨_, by simp only [S.copy, ho, Option.bind_some, if_pos h0], a, content_upd ?_ b⟩
    rw [c]; simp [S.content, ho]
  · by_cases h64 : o.cap ≤ 64
    · have hsz : o.cap = 64 ∧ o.size ≤ 64 := by
        rcases hj.kind with ⟨e, _⟩ | ⟨e, _, e'⟩ | ⟨_, _, e, _⟩
        · exfalso; omega
        · exact ⟨e, e'⟩
        · exfalso; omega
      let b1 : Buf := ⟨o.cap, junk J i 64, .small i, o.size⟩
      have loc := ok.put (s1 := s.set i b1) i (by intro k hk; simp only [S.set]; rw [if_neg hk]) (fun _ _ _ => rfl)
        (by intro h b hb; rw [hi] at hb; simp at hb)
        (by
          intro b hb
          simp only [S.set, if_true, Option.some.injEq] at hb
          subst hb
          exact ⟨⟨junk_length _ _, .inr (.inl ⟨hsz.1, rfl, hsz.2⟩)⟩, by intro h hd; simp [b1] at hd⟩)
        (Nat.le_refl _)
        (by intro x hx; exact absurd (ok.heap _ _ hx).1 (Nat.lt_irrefl _))
      have hb1 : (s.set i b1).bufs i = some b1 := by simp only [S.set, if_true]
      obtain ⟨s2, b2, m1, m2, m3, m4, m5, m6, m7, m8⟩ := loc.1.fill hb1 (p := o.data) (x := x) (by simpa [b1] using h0)
        (read_other hij ho hx (by simp only [S.set]; rw [if_neg (Ne.symm hij)]) (loc.2 j (Ne.symm hij))) hxl
      refine ⟨s2, by simp only [S.copy, ho, Option.bind_some, if_neg h0, if_pos h64]; exact m1, m2, content_upd (m6.trans hx.symm) ?_⟩
      intro k hk; exact (m8 k hk).trans (loc.2 k hk)
    · have hsz : o.size ≤ o.cap := by
        rcases hj.kind with ⟨e, _⟩ | ⟨e, _, e'⟩ | ⟨_, _, _, _, _, _, e⟩
        · omega
        · omega
        · exact e
      let b1 : Buf := ⟨o.cap, junk J i 64, .heap s.next, o.size⟩
      let s1 : S := (s.malloc (junk J s.next o.cap)).set i b1
      have hb1 : s1.bufs i = some b1 := by simp only [s1, S.set, if_true]
      have loc := ok.put_large (s1 := s1) (i := i) rfl
        (by intro k hk; simp only [s1, S.set, S.malloc]; rw [if_neg hk])
        (by intro h b hb; rw [hi] at hb; simp at hb)
        (by intro h hne _; simp only [s1, S.set, S.malloc]; rw [if_neg hne])
        hb1 (junk_length _ _) (x := junk J s.next o.cap) (by simp [s1, S.set, S.malloc]) (by simp only [b1]; omega) (junk_length _ _) rfl hsz
      obtain ⟨s2, b2, m1, m2, m3, m4, m5, m6, m7, m8⟩ := loc.1.fill hb1 (p := o.data) (x := x) (by simpa [b1] using h0)
        (read_other hij ho hx (by simp only [s1, S.set, S.malloc]; rw [if_neg (Ne.symm hij)]) (loc.2 j (Ne.symm hij))) hxl
      refine ⟨s2, by simp only [S.copy, ho, Option.bind_some, if_neg h0, if_neg h64]; exact m1, m2, content_upd (m6.trans hx.symm) ?_⟩
      intro k hk; exact (m8 k hk).trans (loc.2 k hk)

theorem OK.reset {s : S} (ok : OK E s) {i : Nat} {b : Buf} (hb : s.bufs i = some b) :
    ∃ s', s.reset i = some s' ∧ OK E s' ∧ s'.bufs i = some { b with cap := 0, size := 0, data := .null } ∧
      (∀ k, k ≠ i → s'.bufs k = s.bufs k) ∧ (∀ k, k ≠ i → s'.content E k = s.content E k) := by
  obtain ⟨s1, d1, d2, d3, d4, d5, d6⟩ := ok.dealloc hb
  let b1 : Buf := { b with cap := 0, size := 0, data := .null }
  have hb1 : (s1.set i b1).bufs i = some b1 := by simp only [S.set, if_true]
  have h3 : ∀ k, k ≠ i → (s1.set i b1).bufs k = s.bufs k := by
    intro k hk; simp only [S.set]; rw [if_neg hk]; exact d3 k hk
  have loc := ok.put_ref (s1 := s1.set i b1) hb d2 h3 d4 d5 hb1 (ok.buf i b hb).small rfl (.inl ⟨rfl, rfl⟩)
  exact ⟨s1.set i b1, by simp only [S.reset, hb, Option.bind_some, d1]; rfl, loc.1, hb1, h3, loc.2⟩

theorem OK.assign {s : S} (ok : OK E s) {i j : Nat} {b o : Buf} (hb : s.bufs i = some b) (ho : s.bufs j = some o) :
    ∃ s', s.assign E J i j = some s' ∧ OK E s' ∧ s'.content E = upd (s.content E) i (s.content E j) := by
  by_cases hij : i = j
  · subst hij
    exact ⟨s, by simp [S.assign], ok, content_upd rfl (fun _ _ => rfl)⟩
  have hj := ok.buf j o ho
  have hi := ok.buf i b hb
  obtain ⟨x, hx, hxl⟩ := ok.content ho
  obtain ⟨s1, d1, d2, d3, d4, d5, d6⟩ := ok.dealloc hb
  by_cases h0 : o.cap = 0
  · have hk : (o.data = .null ∧ o.size = 0) ∨ ∃ k off, o.data = .ext k off ∧ off + o.size ≤ (E k).length := by
      rcases hj.kind with ⟨_, e⟩ | ⟨e, _⟩ | ⟨_, _, e, _⟩
      · exact e
      · exfalso; omega
      · exfalso; omega
    let b1 : Buf := { b with cap := 0, data := o.data, size := o.size }
    have hb1 : (s1.set i b1).bufs i = some b1 := by simp only [S.set, if_true]
    have loc := ok.put_ref (s1 := s1.set i b1) hb d2 (by intro k hk; simp only [S.set]; rw [if_neg hk]; exact d3 k hk) d4 d5 hb1 hi.small rfl hk
    refine ⟨s1.set i b1, by simp only [S.assign, if_neg hij, hb, ho, Option.bind_some, if_pos h0, d1]; rfl, loc.1, content_upd ?_ loc.2⟩
    rw [hx, ← hx]
    simp only [S.content, hb1, ho, Option.bind_some, b1]
    exact read_ref hj h0
  · by_cases h64 : o.cap ≤ 64
    · have hsz : o.size ≤ 64 := by
        rcases hj.kind with ⟨e, _⟩ | ⟨e, _, e'⟩ | ⟨_, _, e, _⟩
        · omega
        · exact e'
        · omega
      let b1 : Buf := { b with cap := 64, data := .small i, size := o.size }
      have hb1 : (s1.set i b1).bufs i = some b1 := by simp only [S.set, if_true]
      have h3 : ∀ k, k ≠ i → (s1.set i b1).bufs k = s.bufs k := by intro k hk; simp only [S.set]; rw [if_neg hk]; exact d3 k hk
      have loc := ok.put_small (s1 := s1.set i b1) hb d2 h3 d4 d5 hb1 hi.small rfl rfl hsz
      obtain ⟨s2, b2, m1, m2, m3, m4, m5, m6, m7, m8⟩ := loc.1.fill hb1 (p := o.data) (x := x) (by simp [b1])
        (read_other hij ho hx (h3 j (Ne.symm hij)) (loc.2 j (Ne.symm hij))) hxl
      refine ⟨s2, by simp only [S.assign, if_neg hij, hb, ho, Option.bind_some, if_neg h0, if_pos h64, d1]; exact m1, m2,
        content_upd (m6.trans hx.symm) ?_⟩
      intro k hk; exact (m8 k hk).trans (loc.2 k hk)
    · have hsz : o.size ≤ o.cap := by
        rcases hj.kind with ⟨e, _⟩ | ⟨e, _, e'⟩ | ⟨_, _, _, _, _, _, e⟩
        · omega
        · omega
        · exact e
      by_cases hcap : o.cap > b.cap
      · -- a new block
        let b1 : Buf := { b with cap := o.cap, data := .heap s.next, size := o.size }
        have key : ∃ s1 z, s.realloc J (if b.cap ≤ 64 then .null else b.data) o.cap = some s1 ∧ s1.next = s.next + 1 ∧ s1.bufs = s.bufs ∧
            s1.heap s.next = some z ∧ z.length = o.cap ∧ (∀ h b', s.bufs i = some b' → b'.data = .heap h → s1.heap h = none) ∧
            (∀ h, h ≠ s.next → (∀ b', s.bufs i = some b' → b'.data ≠ .heap h) → s1.heap h = s.heap h) := by
          by_cases hc : b.cap ≤ 64
          · refine ⟨s.malloc (junk J s.next o.cap), junk J s.next o.cap, by simp [if_pos hc, S.realloc], rfl, rfl, by simp [S.malloc],
              junk_length _ _, ?_, ?_⟩
            · intro h b' hb' hd
              rw [hb, Option.some.injEq] at hb'; subst hb'
              exfalso
              rcases hi.kind with ⟨_, ⟨e, _⟩ | ⟨_, _, e, _⟩⟩ | ⟨_, e, _⟩ | ⟨_, _, e, _⟩
              · rw [e] at hd; simp at hd
              · rw [e] at hd; simp at hd
              · rw [e] at hd; simp at hd
              · omega
            · intro h hne _; simp only [S.malloc]; rw [if_neg hne]
          · rcases hi.kind with ⟨e, _⟩ | ⟨e, _, _⟩ | ⟨h', y, e1, e2, e3, e4, e5⟩
            · omega
            · omega
            have hne : h' ≠ s.next := by have := (ok.heap _ _ e3).1; omega
            refine ⟨({ s with heap := fun k => if k = h' then none else s.heap k } : S).malloc (y.take o.cap ++ (junk J s.next o.cap).drop y.length),
              y.take o.cap ++ (junk J s.next o.cap).drop y.length, by simp only [if_neg hc, S.realloc, e2, e3, S.free, Option.bind_some], rfl, rfl,
              by simp only [S.malloc, if_true], ?_, ?_, ?_⟩
            · simp [junk_length]; omega
            · intro h b' hb' hd
              rw [hb, Option.some.injEq] at hb'; subst hb'
              rw [e2, Ptr.heap.injEq] at hd; subst hd
              simp only [S.malloc]; rw [if_neg hne]; simp
            · intro h hne' hno
              have : h ≠ h' := by rintro rfl; exact hno b hb e2
              simp only [S.malloc]; rw [if_neg hne', if_neg this]
        obtain ⟨s1, z, r1, r2, r3, r4, r5, r6, r7⟩ := key
        have hb1 : (s1.set i b1).bufs i = some b1 := by simp only [S.set, if_true]
        have h3 : ∀ k, k ≠ i → (s1.set i b1).bufs k = s.bufs k := by intro k hk; simp only [S.set]; rw [if_neg hk, r3]
        have loc := ok.put_large (s1 := s1.set i b1) (i := i) r2 h3 r6 r7 hb1 hi.small r4 (by simp only [b1]; omega) r5 rfl hsz
        obtain ⟨s2, b2, m1, m2, m3, m4, m5, m6, m7, m8⟩ := loc.1.fill hb1 (p := o.data) (x := x) (by simpa [b1] using h0)
          (read_other hij ho hx (h3 j (Ne.symm hij)) (loc.2 j (Ne.symm hij))) hxl
        refine ⟨s2, by simp only [S.assign, if_neg hij, hb, ho, Option.bind_some, if_neg h0, if_neg h64, if_pos hcap, r1]; exact m1, m2,
          content_upd (m6.trans hx.symm) ?_⟩
        intro k hk; exact (m8 k hk).trans (loc.2 k hk)
      · -- into the block there is
        have hc : b.cap ≠ 0 := by omega
        obtain ⟨st, t1, t2, t3, t4⟩ := ok.store hb hc
        obtain ⟨loc1, _, loc2⟩ := ok.resize hb hc t1 (n := o.size) (by omega)
        let b1 : Buf := { b with size := o.size }
        have hb1 : (s.set i b1).bufs i = some b1 := by simp only [S.set, if_true]
        have h3 : ∀ k, k ≠ i → (s.set i b1).bufs k = s.bufs k := by intro k hk; simp only [S.set]; rw [if_neg hk]
        obtain ⟨s2, b2, m1, m2, m3, m4, m5, m6, m7, m8⟩ := loc1.fill hb1 (p := o.data) (x := x) hc
          (read_other hij ho hx (h3 j (Ne.symm hij)) (loc2 j (Ne.symm hij))) hxl
        refine ⟨s2, by simp only [S.assign, if_neg hij, hb, ho, Option.bind_some, if_neg h0, if_neg h64, if_neg hcap]; exact m1, m2,
          content_upd (m6.trans hx.symm) ?_⟩
        intro k hk; exact (m8 k hk).trans (loc2 k hk)

end Ltio.Redis.Buffer
