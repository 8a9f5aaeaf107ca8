import Verif.Redis.BufferProps
/-
C193, C194 for histories of operations, and what goes wrong otherwise.
-/
namespace Ltio.Redis.Buffer

variable {E : Nat → Bytes} {J : Nat → Nat → UInt8}

theorem OK.move {s : S} (ok : OK E s) {i j : Nat} (hij : i ≠ j) {b o : Buf} (hb : s.bufs i = some b) (ho : s.bufs j = some o) :
    ∃ s', s.move E i j = some s' ∧ OK E s' ∧ s'.content E = upd (upd (s.content E) i (s.content E j)) j (some []) := by
  obtain ⟨s1, r1, ok1, rb, ro, rc⟩ := ok.reset hb
  have ho1 : s1.bufs j = some o := (ro j (Ne.symm hij)).trans ho
  have hj := ok1.buf j o ho1
  obtain ⟨x, hx, hxl⟩ := ok1.content ho1
  have hxs : s.content E j = some x := (rc j (Ne.symm hij)).symm.trans hx
  have hsm : b.small.length = 64 := (ok.buf i b hb).small
  let d : Buf := { b with cap := 0, size := 0, data := .null }
  let nil : Buf := { o with cap := 0, data := .null, size := 0 }
  have nilOK : ∀ hp, BufOK E hp j nil := fun hp => ⟨hj.small, .inl ⟨rfl, .inl ⟨rfl, rfl⟩⟩⟩
  have start : s.move E i j = (if o.cap = 0 then some (s1.set i { d with data := o.data, size := o.size })
     else if o.cap ≤ 64 then (s1.set i { d with cap := 64, data := .small i, size := o.size }).memcpy E (.small i) 0 o.data o.size
     else some (s1.set i { d with cap := o.cap, data := o.data, size := o.size })).bind
    (fun s2 => (s2.bufs j).bind (fun o2 => some (s2.set j { o2 with cap := 0, data := .null, size := 0 }))) := by
    simp only [S.move, r1, rb, ho1, Option.bind_some]; rfl
  have fin : ∀ {s3 : S}, s3.content E i = some x → s3.content E j = some [] → (∀ k, k ≠ i → k ≠ j → s3.content E k = s1.content E k) →
      s3.content E = upd (upd (s.content E) i (s.content E j)) j (some []) := by
    intro s3 h1 h2 h3
    funext k
    simp only [upd]
    by_cases ek : k = j
    · subst ek; rw [if_pos rfl, h2]
    · rw [if_neg ek]
      by_cases ei : k = i
      · subst ei; rw [if_pos rfl, h1, hxs]
      · rw [if_neg ei, h3 k ei ek, rc k ei]
  by_cases h0 : o.cap = 0
  · have hk : (o.data = .null ∧ o.size = 0) ∨ ∃ k off, o.data = .ext k off ∧ off + o.size ≤ (E k).length := by
      rcases hj.kind with ⟨_, e⟩ | ⟨e, _⟩ | ⟨_, _, e, _⟩
      · exact e
      · exfalso; omega
      · exfalso; omega
    let b1 : Buf := { d with data := o.data, size := o.size }
    have hnd : ∀ h, o.data ≠ .heap h := by
      intro h hd
      rcases hk with ⟨e', _⟩ | ⟨_, _, e', _⟩ <;> rw [e'] at hd <;> simp at hd
    have l1 := ok1.put_ref (s1 := s1.set i b1) rb rfl (by intro k hk; simp only [S.set]; rw [if_neg hk])
      (by intro h hd; simp at hd) (fun _ _ => rfl) (b1 := b1) (by simp only [S.set, if_true]) hsm rfl hk
    have hj2 : (s1.set i b1).bufs j = some o := by simp only [S.set]; rw [if_neg (Ne.symm hij)]; exact ho1
    have l2 := l1.1.put_ref (s1 := (s1.set i b1).set j nil) hj2 rfl (by intro k hk; simp only [S.set]; rw [if_neg hk])
      (by intro h hd; exact absurd hd (hnd h)) (fun _ _ => rfl) (b1 := nil) (by simp only [S.set, if_true]) hj.small rfl (.inl ⟨rfl, rfl⟩)
    refine ⟨(s1.set i b1).set j nil, ?_, l2.1, fin ?_ ?_ ?_⟩
    · rw [start, if_pos h0, Option.bind_some]
      show ((s1.set i b1).bufs j).bind _ = _
      rw [hj2]; rfl
    · rw [l2.2 i hij, ← hx]
      simp only [S.content, S.set, if_true, ho1, Option.bind_some, b1]
      exact read_ref hj h0
    · simp [S.content, S.set, nil, S.read]
    · intro k h1 h2; rw [l2.2 k h2, l1.2 k h1]
  · by_cases h64 : o.cap ≤ 64
    · have hk : o.cap = 64 ∧ o.data = .small j ∧ o.size ≤ 64 := by
        rcases hj.kind with ⟨e, _⟩ | e | ⟨_, _, e, _⟩
        · exfalso; omega
        · exact e
        · exfalso; omega
      let b1 : Buf := { d with cap := 64, data := .small i, size := o.size }
      have hb1 : (s1.set i b1).bufs i = some b1 := by simp only [S.set, if_true]
      have l1 := ok1.put_small (s1 := s1.set i b1) rb rfl (by intro k hk; simp only [S.set]; rw [if_neg hk])
        (by intro h hd; simp at hd) (fun _ _ => rfl) (b1 := b1) hb1 hsm rfl rfl hk.2.2
      have hj2 : (s1.set i b1).bufs j = some o := by simp only [S.set]; rw [if_neg (Ne.symm hij)]; exact ho1
      obtain ⟨s2, b2, m1, m2, m3, m4, m5, m6, m7, m8⟩ := l1.1.fill hb1 (p := o.data) (x := x) (by simp [b1])
        (read_other hij ho1 hx (hj2.trans ho1.symm) (l1.2 j (Ne.symm hij))) hxl
      have hj3 : s2.bufs j = some o := (m7 j (Ne.symm hij)).trans hj2
      have l2 := m2.put_ref (s1 := s2.set j nil) hj3 rfl (by intro k hk; simp only [S.set]; rw [if_neg hk])
        (by intro h hd; rw [hk.2.1] at hd; simp at hd) (fun _ _ => rfl) (b1 := nil) (by simp only [S.set, if_true]) hj.small rfl (.inl ⟨rfl, rfl⟩)
      refine ⟨s2.set j nil, ?_, l2.1, fin ?_ ?_ ?_⟩
      · rw [start, if_neg h0, if_pos h64]
        have m1' : (s1.set i { d with cap := 64, data := .small i, size := o.size }).memcpy E (.small i) 0 o.data o.size = some s2 := m1
        rw [m1', Option.bind_some, hj3]; rfl
      · rw [l2.2 i hij]; exact m6
      · simp [S.content, S.set, nil, S.read]
      · intro k h1 h2; rw [l2.2 k h2, m8 k h1, l1.2 k h1]
    · obtain ⟨h', y, e1, e2, e3, e4, e5⟩ : ∃ h y, 64 < o.cap ∧ o.data = .heap h ∧ s1.heap h = some y ∧ y.length = o.cap ∧ o.size ≤ o.cap := by
        rcases hj.kind with ⟨e, _⟩ | ⟨e, _⟩ | e
        · exact absurd e h0
        · exact absurd (Nat.le_of_eq e) h64
        · exact e
      let b1 : Buf := { d with cap := o.cap, data := o.data, size := o.size }
      let s3 : S := (s1.set i b1).set j nil
      have hi3 : s3.bufs i = some b1 := by simp only [s3, S.set]; rw [if_neg hij]; simp
      have hj3 : s3.bufs j = some nil := by simp only [s3, S.set, if_true]
      have loc := ok1.local (s' := s3) (fun k => k = i ∨ k = j)
        (by
          intro k hk
          simp only [s3, S.set]; rw [if_neg (fun e => hk (.inr e)), if_neg (fun e => hk (.inl e))])
        (fun _ _ _ => rfl)
        (by
          intro k b' hk hb'
          rcases hk with rfl | rfl
          · rw [hi3, Option.some.injEq] at hb'; subst hb'
            exact ⟨hsm, .inr (.inr ⟨h', y, e1, e2, e3, e4, e5⟩)⟩
          · rw [hj3, Option.some.injEq] at hb'; subst hb'
            exact nilOK _)
        (by
          intro k b' h hk hb' hd
          rcases hk with rfl | rfl
          · rw [hi3, Option.some.injEq] at hb'; subst hb'
            exact .inl ⟨j, o, .inr rfl, ho1, hd⟩
          · rw [hj3, Option.some.injEq] at hb'; subst hb'
            simp [nil] at hd)
        (by
          intro p q bp bq h hp hq hbp hbq dp dq
          have np : p ≠ j := by rintro rfl; rw [hj3, Option.some.injEq] at hbp; subst hbp; simp [nil] at dp
          have nq : q ≠ j := by rintro rfl; rw [hj3, Option.some.injEq] at hbq; subst hbq; simp [nil] at dq
          rw [hp.resolve_right np, hq.resolve_right nq])
        (by
          intro h z hz
          refine ⟨(ok1.heap h z hz).1, ?_⟩
          by_cases e : h = h'
          · subst e; exact .inl ⟨i, b1, .inl rfl, hi3, e2⟩
          · refine .inr ⟨hz, ?_⟩
            rintro k b' (rfl | rfl) hb' hd
            · rw [rb, Option.some.injEq] at hb'; subst hb'; simp at hd
            · rw [ho1, Option.some.injEq] at hb'; subst hb'
              rw [e2, Ptr.heap.injEq] at hd; exact e hd.symm)
      refine ⟨s3, ?_, loc.1, fin ?_ ?_ ?_⟩
      · rw [start, if_neg h0, if_neg h64, Option.bind_some]
        have hj2 : (s1.set i b1).bufs j = some o := by simp only [S.set]; rw [if_neg (Ne.symm hij)]; exact ho1
        show ((s1.set i b1).bufs j).bind _ = _
        rw [hj2]; rfl
      · rw [← hx]
        simp only [S.content, hi3, ho1, Option.bind_some, b1, e2, S.read]
        rfl
      · simp [S.content, hj3, nil, S.read]
      · intro k h1 h2
        exact loc.2 k (fun e => e.elim h1 h2)

/-- Appending bytes that can be read once the room has been made. -/
theorem OK.append {s : S} (ok : OK E s) {i n : Nat} {p : Ptr} {b : Buf} (hb : s.bufs i = some b) {x : Bytes} (hx : x.length = n)
    (hr : ∀ s1, s.reserve E J i (b.size + n) = some s1 → (∀ k, s1.content E k = s.content E k) → (∀ k, k ≠ i → s1.bufs k = s.bufs k) →
      s1.read E p n = some x) :
    ∃ s', s.append E J i p n = some s' ∧ OK E s' ∧ s'.content E = upd (s.content E) i ((s.content E i).map (· ++ x)) := by
  subst hx
  obtain ⟨s1, b1, r1, r2, r3, r4, r5, r6, r7⟩ := ok.reserve (J := J) hb (n := b.size + x.length) (fun _ => .inr (by omega))
  obtain ⟨s2, b2, a1, a2, a3, a4, a5, a6, a7⟩ := r2.add r3 (x := x) (by omega)
  refine ⟨_, ?_, a5, content_upd (by rw [a6, r6]) (fun k hk => (a7 k hk).trans (r6 k))⟩
  simp only [S.append, hb, Option.bind_some, r1, r3, S.memcpy, hr s1 r1 r6 r7, a1, a2]

theorem OK.step {s : S} (ok : OK E s) (o : Op) (hp : Pre E s o) :
    ∃ s', s.step E J o = some s' ∧ OK E s' ∧ Spec E (s.content E) o (s'.content E) := by
  cases o with
  | new i =>
    obtain ⟨a, b, c⟩ := ok.new_ref (i := i) hp (b1 := ⟨0, junk J i 64, .null, 0⟩) (junk_length _ _) rfl (.inl ⟨rfl, rfl⟩)
    exact ⟨_, rfl, a, content_upd (c.trans (by simp [S.read])) b⟩
  | refer i k off n =>
    obtain ⟨a, b, c⟩ := ok.new_ref (i := i) hp.1 (b1 := ⟨0, junk J i 64, .ext k off, n⟩) (junk_length _ _) rfl (.inr ⟨k, off, rfl, hp.2⟩)
    exact ⟨_, rfl, a, content_upd (c.trans (by simp only [S.read]; rw [if_pos hp.2])) b⟩
  | copy i j =>
    obtain ⟨o, ho⟩ := some_of_ne hp.2
    exact ok.copy hp.1 ho
  | assign i j =>
    obtain ⟨b, hb⟩ := some_of_ne hp.1
    obtain ⟨o, ho⟩ := some_of_ne hp.2
    exact ok.assign hb ho
  | move i j =>
    obtain ⟨b, hb⟩ := some_of_ne hp.1
    obtain ⟨o, ho⟩ := some_of_ne hp.2.1
    exact ok.move hp.2.2 hb ho
  | append i k off n =>
    obtain ⟨b, hb⟩ := some_of_ne hp.1
    exact ok.append hb (x := ((E k).drop off).take n) (by simp; have := hp.2; omega)
      (fun s1 _ _ _ => by simp only [S.read]; rw [if_pos hp.2])
  | appendData i j n =>
    obtain ⟨h1, hij, o, ho, hn⟩ := hp
    obtain ⟨b, hb⟩ := some_of_ne h1
    obtain ⟨y, hy, hyl⟩ := ok.content ho
    have key : ∀ s1 : S, s1.read E o.data o.size = some y → s1.read E o.data n = some (y.take n) := by
      intro s1 h
      cases hd : o.data with
      | null =>
        rw [hd] at h; simp only [S.read] at h ⊢
        split at h
        · rw [if_pos (by omega)]; simp at h; simp [h]
        · simp at h
      | small q =>
        rw [hd] at h; simp only [S.read] at h ⊢
        cases hq : s1.bufs q with
        | none => rw [hq] at h; simp at h
        | some bq =>
          rw [hq] at h; simp only [Option.bind_some] at h ⊢
          split at h
          · rw [if_pos (by omega)]; simp only [Option.some.injEq] at h; rw [← h, List.take_take, Nat.min_eq_left hn]
          · simp at h
      | heap q =>
        rw [hd] at h; simp only [S.read] at h ⊢
        cases hq : s1.heap q with
        | none => rw [hq] at h; simp at h
        | some bq =>
          rw [hq] at h; simp only [Option.bind_some] at h ⊢
          split at h
          · rw [if_pos (by omega)]; simp only [Option.some.injEq] at h; rw [← h, List.take_take, Nat.min_eq_left hn]
          · simp at h
      | ext k off =>
        rw [hd] at h; simp only [S.read] at h ⊢
        split at h
        · rw [if_pos (by omega)]; simp only [Option.some.injEq] at h; rw [← h, List.take_take, Nat.min_eq_left hn]
        · simp at h
    obtain ⟨s', e1, e2, e3⟩ := ok.append (J := J) hb (x := y.take n) (n := n) (p := o.data) (by simp; omega)
      (fun s1 _ hc hk => key s1 (read_other hij ho hy (hk j (Ne.symm hij)) (hc j)))
    exact ⟨s', by simp only [S.step, ho, Option.bind_some, e1], e2, y, hy, e3⟩
  | appendBuf i j =>
    obtain ⟨b, hb⟩ := some_of_ne hp.1
    obtain ⟨o, ho⟩ := some_of_ne hp.2
    obtain ⟨y, hy, hyl⟩ := ok.content ho
    obtain ⟨s1, b1, r1, r2, r3, r4, r5, r6, r7⟩ := ok.reserve (J := J) hb (n := b.size + o.size) (fun _ => .inr (by omega))
    obtain ⟨o1, ho1, ho1s⟩ : ∃ o1, s1.bufs j = some o1 ∧ o1.size = o.size := by
      by_cases e : i = j
      · subst e
        rw [hb, Option.some.injEq] at ho; subst ho
        exact ⟨b1, r3, r4⟩
      · exact ⟨o, (r7 j (Ne.symm e)).trans ho, rfl⟩
    have hrd : s1.read E o1.data o1.size = some y := by
      have := (r6 j).trans hy
      simpa [S.content, ho1] using this
    obtain ⟨s2, b2, a1, a2, a3, a4, a5, a6, a7⟩ := r2.add r3 (x := y) (by omega)
    obtain ⟨o2, ho2, ho2s⟩ : ∃ o2, s2.bufs j = some o2 ∧ o2.size = y.length := by
      by_cases e : i = j
      · subst e
        rw [hb, Option.some.injEq] at ho; subst ho
        exact ⟨b2, a2, by omega⟩
      · exact ⟨o1, (a3 j (Ne.symm e)).trans ho1, by omega⟩
    refine ⟨s2.set i { b2 with size := b2.size + y.length }, ?_, a5, y, hy, content_upd (by rw [a6, r6]) (fun k hk => (a7 k hk).trans (r6 k))⟩
    simp only [S.step, S.appendBuf, hb, ho, Option.bind_some, r1, r3, ho1, S.memcpy, hrd, a1, a2, ho2, ho2s]
  | appendChar i c =>
    obtain ⟨b, hb⟩ := some_of_ne hp
    obtain ⟨s1, b1, r1, r2, r3, r4, r5, r6, r7⟩ := ok.reserve (J := J) hb (n := b.size + 1) (fun _ => .inr (by omega))
    obtain ⟨s2, b2, a1, a2, a3, a4, a5, a6, a7⟩ := r2.add r3 (x := [c]) (by simp; omega)
    refine ⟨s2.set i { b2 with size := b2.size + 1 }, ?_, a5, content_upd ((by exact a6 : _ = _).trans (by rw [r6])) (fun k hk => (a7 k hk).trans (r6 k))⟩
    simp only [S.step, S.appendChar, hb, Option.bind_some, r1, r3, a1, a2]
  | reserve i n =>
    obtain ⟨b, hb, hz⟩ := hp
    obtain ⟨s1, b1, r1, r2, r3, r4, r5, r6, r7⟩ := ok.reserve (J := J) hb hz
    exact ⟨s1, r1, r2, funext r6⟩
  | resize i n =>
    obtain ⟨b, hb, hz⟩ := hp
    obtain ⟨x, hx, hxl⟩ := ok.content hb
    obtain ⟨s1, b1, r1, r2, r3, r4, r5, r6, r7⟩ := ok.reserve (J := J) hb hz
    have hstep : s.step E J (.resize i n) = some (s1.set i { b1 with size := n }) := by
      simp only [S.step, S.resize, r1, r3, Option.bind_some]
    by_cases hc : b1.cap = 0
    · have hn : n = 0 := by omega
      subst hn
      have loc := r2.put_ref (s1 := s1.set i { b1 with size := 0 }) r3 rfl (by intro k hk; simp only [S.set]; rw [if_neg hk])
        (by
          intro h hd
          rcases (r2.buf i b1 r3).kind with ⟨_, ⟨e, _⟩ | ⟨_, _, e, _⟩⟩ | ⟨e, _⟩ | ⟨_, _, e, _⟩
          · rw [e] at hd; simp at hd
          · rw [e] at hd; simp at hd
          · omega
          · omega) (fun _ _ => rfl) (b1 := { b1 with size := 0 }) (by simp only [S.set, if_true]) (r2.buf i b1 r3).small hc
        (by
          rcases (r2.buf i b1 r3).kind with ⟨_, ⟨e, _⟩ | ⟨k, off, e, e'⟩⟩ | ⟨e, _⟩ | ⟨_, _, e, _⟩
          · exact .inl ⟨e, rfl⟩
          · exact .inr ⟨k, off, e, by simp only []; omega⟩
          · exfalso; omega
          · exfalso; omega)
      obtain ⟨z, hz1, hz2⟩ := loc.1.content (i := i) (b := { b1 with size := 0 }) (by simp only [S.set, if_true])
      have hz3 : z = [] := List.length_eq_zero_iff.1 hz2
      subst hz3
      exact ⟨_, hstep, loc.1, x, [], hx, rfl, by simp, content_upd hz1 (fun k hk => (loc.2 k hk).trans (r6 k))⟩
    · obtain ⟨st, h1, h2, h3, h4⟩ := r2.store r3 hc
      obtain ⟨q1, q2, q3⟩ := r2.resize r3 hc h1 (n := n) r5
      refine ⟨_, hstep, q1, x, st.take n, hx, by simp; omega, ?_, content_upd q2 (fun k hk => (q3 k hk).trans (r6 k))⟩
      have : x = st.take b1.size := by
        have := (r6 i).symm.trans h4
        rw [hx] at this; simpa using this
      rw [this, List.take_take, List.take_take]
      congr 1
      simp; omega
  | clear i =>
    obtain ⟨b, hb⟩ := some_of_ne hp
    have hstep : s.step E J (.clear i) = some (s.set i { b with size := 0 }) := by
      simp only [S.step, S.clear, hb, Option.bind_some]
    by_cases hc : b.cap = 0
    · have loc := ok.put_ref (s1 := s.set i { b with size := 0 }) hb rfl (by intro k hk; simp only [S.set]; rw [if_neg hk])
        (by
          intro h hd
          rcases (ok.buf i b hb).kind with ⟨_, ⟨e, _⟩ | ⟨_, _, e, _⟩⟩ | ⟨e, _⟩ | ⟨_, _, e, _⟩
          · rw [e] at hd; simp at hd
          · rw [e] at hd; simp at hd
          · omega
          · omega) (fun _ _ => rfl) (b1 := { b with size := 0 }) (by simp only [S.set, if_true]) (ok.buf i b hb).small hc
        (by
          rcases (ok.buf i b hb).kind with ⟨_, ⟨e, _⟩ | ⟨k, off, e, e'⟩⟩ | ⟨e, _⟩ | ⟨_, _, e, _⟩
          · exact .inl ⟨e, rfl⟩
          · exact .inr ⟨k, off, e, by simp only []; omega⟩
          · exfalso; omega
          · exfalso; omega)
      obtain ⟨z, hz1, hz2⟩ := loc.1.content (i := i) (b := { b with size := 0 }) (by simp only [S.set, if_true])
      have hz3 : z = [] := List.length_eq_zero_iff.1 hz2
      subst hz3
      exact ⟨_, hstep, loc.1, content_upd hz1 loc.2⟩
    · obtain ⟨st, h1, h2, h3, h4⟩ := ok.store hb hc
      obtain ⟨q1, q2, q3⟩ := ok.resize hb hc h1 (n := 0) (Nat.zero_le _)
      exact ⟨_, hstep, q1, content_upd (by rw [q2]; simp) q3⟩
  | reset i =>
    obtain ⟨b, hb⟩ := some_of_ne hp
    obtain ⟨s1, r1, r2, r3, r4, r5⟩ := ok.reset hb
    exact ⟨s1, r1, r2, content_upd (by simp [S.content, r3, S.read]) r5⟩
  | destroy i =>
    obtain ⟨b, hb⟩ := some_of_ne hp
    obtain ⟨s1, d1, d2, d3, d4, d5, d6⟩ := ok.dealloc hb
    let s2 : S := { s1 with bufs := fun k => if k = i then none else s1.bufs k }
    have loc := ok.put (s1 := s2) i (by intro k hk; simp only [s2]; rw [if_neg hk]; exact d3 k hk)
      (fun h _ hno => d5 h (hno b hb))
      (by intro h b' hb' hd; rw [hb, Option.some.injEq] at hb'; subst hb'; exact d4 h hd)
      (by intro b' hb'; simp [s2] at hb')
      (Nat.le_of_eq d2.symm)
      (by
        intro x hx
        exfalso
        have hx : s1.heap s.next = some x := hx
        by_cases e : b.data = .heap s.next
        · rw [d4 _ e] at hx; simp at hx
        · rw [d5 _ e] at hx
          exact absurd (ok.heap _ _ hx).1 (Nat.lt_irrefl _))
    exact ⟨s2, by simp only [S.step, S.destroy, hb, Option.bind_some, d1]; rfl, loc.1,
      content_upd (by simp [S.content, s2]) loc.2⟩

/-- The caller does its part before every operation. -/
def Careful (E : Nat → Bytes) (J : Nat → Nat → UInt8) : S → List Op → Prop
  | _, [] => True
  | s, o :: t => Pre E s o ∧ ∀ s', s.step E J o = some s' → Careful E J s' t

/-- What a history of operations may do to the contents. -/
def SpecRun (E : Nat → Bytes) (f : Nat → Option Bytes) : List Op → (Nat → Option Bytes) → Prop
  | [], g => g = f
  | o :: t, g => ∃ f', Spec E f o f' ∧ SpecRun E f' t g

theorem OK.run {ops : List Op} : ∀ {s : S}, OK E s → Careful E J s ops →
    ∃ s', s.run E J ops = some s' ∧ OK E s' ∧ SpecRun E (s.content E) ops (s'.content E) := by
  induction ops with
  | nil => intro s ok _; exact ⟨s, rfl, ok, rfl⟩
  | cons o t ih =>
    intro s ok hc
    obtain ⟨s1, e1, ok1, sp1⟩ := ok.step (J := J) o hc.1
    obtain ⟨s2, e2, ok2, sp2⟩ := ih ok1 (hc.2 s1 e1)
    exact ⟨s2, by simp only [S.run, e1, Option.bind_some, e2], ok2, _, sp1, sp2⟩

theorem OK.empty : OK E S.empty := by
  refine ⟨?_, ?_, ?_⟩
  · intro i b h; simp [S.empty] at h
  · intro i j a b h ha; simp [S.empty] at ha
  · intro h x hx; simp [S.empty] at hx

/-- **C194 (contents).**  Whatever memory holds before it is written, a history of operations in which the caller does its part has no
memory error, and the contents of all buffers are at each step what the operations say of strings. -/
theorem c194_contents (E : Nat → Bytes) (J : Nat → Nat → UInt8) (ops : List Op) (hc : Careful E J S.empty ops) :
    ∃ s, S.empty.run E J ops = some s ∧ SpecRun E (fun _ => none) ops (s.content E) := by
  obtain ⟨s, e, _, sp⟩ := OK.empty.run hc
  exact ⟨s, e, sp⟩

/-- **C194 (memory).**  Every block that is allocated belongs to exactly one buffer that exists: once all are destroyed nothing is left
allocated. -/
theorem c194_memory (E : Nat → Bytes) (J : Nat → Nat → UInt8) (ops : List Op) (hc : Careful E J S.empty ops) {s : S}
    (hr : S.empty.run E J ops = some s) :
    (∀ h, s.heap h ≠ none → ∃ i, (∃ b, s.bufs i = some b ∧ b.data = .heap h) ∧ ∀ j b, s.bufs j = some b → b.data = .heap h → j = i) ∧
    ((∀ i, s.bufs i = none) → ∀ h, s.heap h = none) := by
  obtain ⟨s', e, ok, _⟩ := OK.empty.run hc
  rw [hr, Option.some.injEq] at e
  subst e
  constructor
  · intro h hh
    obtain ⟨x, hx⟩ := some_of_ne hh
    obtain ⟨_, i, b, hb, hd⟩ := ok.heap h x hx
    exact ⟨i, ⟨b, hb, hd⟩, fun j b' hb' hd' => ok.own j i b' b h hb' hb hd' hd⟩
  · intro hn h
    cases hx : s.heap h with
    | none => rfl
    | some x =>
      obtain ⟨_, i, b, hb, _⟩ := ok.heap h x hx
      rw [hn i] at hb; simp at hb

/-! ### Violations -/

/-- **C193 violation.**  Appending a part of a buffer's own data to it when its block has to grow reads the block that has just been
given back. -/
theorem c193_self_append_violated (E : Nat → Bytes) (J : Nat → Nat → UInt8) (ops : List Op) (hc : Careful E J S.empty ops) {s : S}
    (hr : S.empty.run E J ops = some s) {i n : Nat} {b : Buf} (hb : s.bufs i = some b) (hl : 64 < b.cap) (hn : 0 < n)
    (hgrow : b.cap < b.size + n) : s.step E J (.appendData i i n) = none := by
  obtain ⟨s', e, ok, _⟩ := OK.empty.run hc
  rw [hr, Option.some.injEq] at e
  subst e
  rcases (ok.buf i b hb).kind with ⟨e, _⟩ | ⟨e, _, _⟩ | ⟨h', y, e1, e2, e3, e4, e5⟩
  · omega
  · omega
  have hne : h' ≠ s.next := by have := (ok.heap _ _ e3).1; omega
  simp only [S.step, hb, Option.bind_some, S.append, S.reserve]
  rw [if_pos (by omega), if_neg (by omega)]
  simp only [S.realloc, e2, e3, S.free, Option.bind_some, S.set, S.malloc, if_true, S.memcpy, S.read]
  rw [if_neg hne]
  simp

/-- **C193 violation.**  Asking for less room than the data a buffer refers to, or cutting such a buffer, writes all of that data into the
smaller room. -/
theorem c193_shrink_ref_violated (E : Nat → Bytes) (J : Nat → Nat → UInt8) (ops : List Op) (hc : Careful E J S.empty ops) {s : S}
    (hr : S.empty.run E J ops = some s) {i n : Nat} {b : Buf} (hb : s.bufs i = some b) (hl : b.cap = 0) (hn : 0 < n)
    (hsz : round n < b.size) : s.step E J (.reserve i n) = none ∧ s.step E J (.resize i n) = none := by
  obtain ⟨s', e, ok, _⟩ := OK.empty.run hc
  rw [hr, Option.some.injEq] at e
  subst e
  have hk := ok.buf i b hb
  obtain ⟨x, hx, hxl⟩ := ok.content hb
  have hx' : s.read E b.data b.size = some x := by simpa [S.content, hb] using hx
  have hx0 : x ≠ [] := by rintro rfl; simp at hxl; omega
  have key : s.reserve E J i n = none := by
    simp only [S.reserve, hb, Option.bind_some]
    rw [if_pos (by omega), if_pos (by omega)]
    split
    · simp only [S.memcpy]
      rw [read_ref (s := _) (t := s) hk hl, hx', Option.bind_some]
      simp only [S.write, if_neg hx0, S.set, S.malloc, if_true, Option.bind_some]
      rw [if_neg (by rw [junk_length]; omega)]
    · simp only [S.memcpy]
      rw [read_ref (s := _) (t := s) hk hl, hx', Option.bind_some]
      simp only [S.write, if_neg hx0, S.set, if_true, Option.bind_some]
      rw [if_neg (by
        have hs := hk.small
        have h64 : 64 ≤ round n := by unfold round; split <;> omega
        omega)]
  exact ⟨key, by simp only [S.step, S.resize, key, Option.bind_none]⟩

/-- **C193 violation.**  A buffer moved onto itself loses its data. -/
theorem c193_self_move_violated (E : Nat → Bytes) (J : Nat → Nat → UInt8) (ops : List Op) (hc : Careful E J S.empty ops) {s : S}
    (hr : S.empty.run E J ops = some s) {i : Nat} {b : Buf} (hb : s.bufs i = some b) :
    ∃ s', s.step E J (.move i i) = some s' ∧ s'.content E i = some [] := by
  obtain ⟨s0, e, ok, _⟩ := OK.empty.run hc
  rw [hr, Option.some.injEq] at e
  subst e
  obtain ⟨s1, r1, r2, r3, r4, r5⟩ := ok.reset hb
  refine ⟨s1.set i { b with cap := 0, size := 0, data := .null }, ?_, by simp [S.content, S.read, S.set]⟩
  simp only [S.step, S.move, r1, r3, Option.bind_some, if_true, S.set, Option.some.injEq, S.mk.injEq, and_true]
  funext k
  split <;> rfl

/-! ### An example -/

/-- 100 bytes of the caller's, then nothing. -/
def exE : Nat → Bytes := fun k => if k = 0 then (List.range 100).map UInt8.ofNat else []
def exJ : Nat → Nat → UInt8 := fun _ _ => 7

/-- A referenced buffer, one that grows from nothing over its small room to the heap, copies, an assignment in either direction, a move. -/
def exOps : List Op := [.new 0, .refer 1 0 10 20, .append 0 0 0 3, .appendChar 0 9, .appendBuf 0 1, .copy 2 0, .append 0 0 0 60, .appendBuf 0 0,
  .copy 3 0, .appendData 2 1 5, .assign 1 2, .assign 3 1, .assign 2 0, .move 0 2, .resize 1 2, .clear 3, .appendChar 3 1, .reserve 3 200]

/-- `Pre`, computed. -/
def preB (E : Nat → Bytes) (s : S) : Op → Bool
  | .new i => (s.bufs i).isNone
  | .refer i k off n => (s.bufs i).isNone && decide (off + n ≤ (E k).length)
  | .copy i j => (s.bufs i).isNone && (s.bufs j).isSome
  | .assign i j => (s.bufs i).isSome && (s.bufs j).isSome
  | .move i j => (s.bufs i).isSome && (s.bufs j).isSome && decide (i ≠ j)
  | .append i k off n => (s.bufs i).isSome && decide (off + n ≤ (E k).length)
  | .appendData i j n => (s.bufs i).isSome && decide (i ≠ j) && (s.bufs j).any (fun o => decide (n ≤ o.size))
  | .appendBuf i j => (s.bufs i).isSome && (s.bufs j).isSome
  | .appendChar i _ => (s.bufs i).isSome
  | .reserve i n => (s.bufs i).any (fun b => decide (b.cap = 0 → n = 0 ∨ b.size ≤ n))
  | .resize i n => (s.bufs i).any (fun b => decide (b.cap = 0 → n = 0 ∨ b.size ≤ n))
  | .clear i => (s.bufs i).isSome
  | .reset i => (s.bufs i).isSome
  | .destroy i => (s.bufs i).isSome

theorem ne_of_isSome {α : Type} {x : Option α} (h : x.isSome = true) : x ≠ none := by rintro rfl; simp at h

theorem pre_of_preB {E : Nat → Bytes} {s : S} {o : Op} (h : preB E s o = true) : Pre E s o := by
  cases o <;> simp only [preB, Bool.and_eq_true, decide_eq_true_eq, Option.isNone_iff_eq_none, Option.any_eq_true, beq_iff_eq] at h
  case new i => exact h
  case refer i k off n => exact h
  case copy i j => exact ⟨h.1, ne_of_isSome h.2⟩
  case assign i j => exact ⟨ne_of_isSome h.1, ne_of_isSome h.2⟩
  case move i j => exact ⟨ne_of_isSome h.1.1, ne_of_isSome h.1.2, h.2⟩
  case append i k off n => exact ⟨ne_of_isSome h.1, h.2⟩
  case appendData i j n => exact ⟨ne_of_isSome h.1.1, h.1.2, h.2⟩
  case appendBuf i j => exact ⟨ne_of_isSome h.1, ne_of_isSome h.2⟩
  case appendChar i c => exact ne_of_isSome h
  case reserve i n => exact h
  case resize i n => exact h
  case clear i => exact ne_of_isSome h
  case reset i => exact ne_of_isSome h
  case destroy i => exact ne_of_isSome h

def carefulB (E : Nat → Bytes) (J : Nat → Nat → UInt8) : S → List Op → Bool
  | _, [] => true
  | s, o :: t => preB E s o && (match s.step E J o with
    | none => true
    | some s' => carefulB E J s' t)

theorem careful_of_B {E : Nat → Bytes} {J : Nat → Nat → UInt8} {ops : List Op} : ∀ {s : S}, carefulB E J s ops = true → Careful E J s ops := by
  induction ops with
  | nil => intro s _; trivial
  | cons o t ih =>
    intro s h
    simp only [carefulB, Bool.and_eq_true] at h
    refine ⟨pre_of_preB h.1, ?_⟩
    intro s' hs
    have h2 := h.2
    rw [hs] at h2
    exact ih h2

/-- What buffer 0 of the example holds before it is doubled. -/
def exHalf : Bytes := [0, 1, 2, 9] ++ (List.range 20).map (fun k => UInt8.ofNat (k + 10)) ++ (List.range 60).map UInt8.ofNat

theorem w_c194 : Careful exE exJ S.empty exOps ∧
    (S.empty.run exE exJ exOps).map (fun s => [s.content exE 0, s.content exE 1, s.content exE 2, s.content exE 3]) =
      some [some (exHalf ++ exHalf), some [0, 1], some [], some [1]] := by
  constructor
  · exact careful_of_B (by decide +kernel)
  · decide +kernel

/-- The violations' hypotheses are met: a buffer on the heap and one that refers to 100 bytes. -/
theorem w_c193 : Careful exE exJ S.empty [.new 0, .append 0 0 0 100, .refer 1 0 0 100] ∧
    (S.empty.run exE exJ [.new 0, .append 0 0 0 100, .refer 1 0 0 100]).map (fun s => [(s.bufs 0).map (fun b => (b.cap, b.size)),
      (s.bufs 1).map (fun b => (b.cap, b.size))]) = some [some (128, 100), some (0, 100)] := by
  constructor
  · exact careful_of_B (by decide +kernel)
  · decide +kernel

end Ltio.Redis.Buffer
