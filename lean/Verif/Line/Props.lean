import Verif.Line.Model
/- Property C10. -/
namespace Ltio.Line
open Ltio.IOBuffer (Byte searchCRLF)

/-- A body that can be sent as one line: it has no CRLF inside. -/
def Plain (l : List Byte) : Prop := ∀ pre post : List Byte, l ≠ pre ++ 13 :: 10 :: post

theorem search_none {l : List Byte} : searchCRLF l = none ↔ Plain l := by
  constructor
  · intro h pre post e
    subst e
    induction pre with
    | nil => simp [searchCRLF] at h
    | cons a pre ih =>
      cases hp : pre ++ 13 :: 10 :: post with
      | nil => simp at hp
      | cons b rest =>
        rw [List.cons_append, hp, searchCRLF] at h
        split at h
        · simp at h
        · rw [Option.map_eq_none_iff, ← hp] at h; exact ih h
  · intro h
    induction l with
    | nil => rfl
    | cons a l ih =>
      cases l with
      | nil => rfl
      | cons b rest =>
        rw [searchCRLF]
        split
        · rename_i hab; obtain ⟨rfl, rfl⟩ := hab
          exact absurd rfl (h [] rest)
        · rw [ih]; · rfl
          intro pre post e
          exact h (a :: pre) post (by rw [e]; rfl)

theorem search_some {l : List Byte} {i : Nat} (h : searchCRLF l = some i) :
    ∃ pre post, l = pre ++ 13 :: 10 :: post ∧ pre.length = i ∧ Plain pre ∧ Plain (pre ++ [13]) := by
  induction l generalizing i with
  | nil => simp [searchCRLF] at h
  | cons a l ih =>
    cases l with
    | nil => simp [searchCRLF] at h
    | cons b rest =>
      rw [searchCRLF] at h
      split at h
      · rename_i hab; obtain ⟨rfl, rfl⟩ := hab
        simp at h; subst h
        refine ⟨[], rest, rfl, rfl, ?_, ?_⟩
        · rw [← search_none]; rfl
        · rw [← search_none]; rfl
      · rename_i hab
        rw [Option.map_eq_some_iff] at h
        obtain ⟨j, hj, rfl⟩ := h
        obtain ⟨pre, post, e, hl, hp, hq⟩ := ih hj
        have key : ∀ t, (∃ u, pre ++ [13] = t ++ u) → Plain t → Plain (a :: t) := by
          intro t ht hpt pre' post' e'
          cases pre' with
          | nil =>
            simp only [List.nil_append, List.cons.injEq] at e'
            obtain ⟨rfl, e'⟩ := e'
            obtain ⟨u, hu⟩ := ht
            rw [e'] at hu
            cases pre with
            | nil => simp at hu
            | cons c pre =>
              simp at hu e
              exact hab ⟨rfl, by rw [e.1, hu.1]⟩
          | cons c pre' =>
            simp only [List.cons_append, List.cons.injEq] at e'
            exact hpt pre' post' e'.2
        refine ⟨a :: pre, post, by rw [e]; rfl, by simp [hl], key pre ⟨[13], rfl⟩ hp, key (pre ++ [13]) ⟨[], by simp⟩ hq⟩

theorem search_line {l : List Byte} (hl : Plain l) (x : List Byte) :
    searchCRLF (l ++ 13 :: 10 :: x) = some l.length := by
  induction l with
  | nil => simp [searchCRLF]
  | cons a l ih =>
    have hl' : Plain l := fun pre post e => hl (a :: pre) post (by rw [e]; rfl)
    cases hp : l ++ 13 :: 10 :: x with
    | nil => simp at hp
    | cons b rest =>
      rw [List.cons_append, hp, searchCRLF, if_neg, ← hp, ih hl']
      · rfl
      · rintro ⟨rfl, rfl⟩
        cases l with
        | nil => simp at hp
        | cons c l => simp at hp; exact hl [] l (by rw [hp.1]; rfl)

/-- one call, in terms of lines -/
theorem onEvent_cases (kept chunk : List Byte) :
    (Plain (kept ++ chunk) ∧ onEvent kept chunk = ([], kept ++ chunk)) ∨
    ∃ l r, Plain l ∧ kept ++ chunk = l ++ 13 :: 10 :: r ∧ onEvent kept chunk = ([l], r) := by
  unfold onEvent
  generalize kept ++ chunk = b
  by_cases hb : b.length > 0
  · rw [if_pos hb]
    unfold onDataReceived
    cases h : searchCRLF b with
    | none => left; exact ⟨search_none.1 h, rfl⟩
    | some i =>
      right
      obtain ⟨pre, post, e, hl, hp, _⟩ := search_some h
      refine ⟨pre, post, hp, e, ?_⟩
      subst e; subst hl
      simp
  · have : b = [] := by simpa using hb
    subst this
    left
    exact ⟨by rw [← search_none]; rfl, rfl⟩

/-- Every byte received is in exactly one delivered line or still buffered. -/
theorem run_conserves (kept : List Byte) (chunks : List (List Byte)) :
    (run kept chunks).1.flatMap sendMessage ++ (run kept chunks).2 = kept ++ chunks.flatten ∧
    ∀ l ∈ (run kept chunks).1, Plain l := by
  induction chunks generalizing kept with
  | nil => simp [run]
  | cons c cs ih =>
    rcases onEvent_cases kept c with ⟨_, h⟩ | ⟨l, r, hl, e, h⟩
    · have := ih (kept ++ c)
      simpa [run, h] using this
    · obtain ⟨h1, h2⟩ := ih r
      constructor
      · simp only [run, h, List.flatMap_append, List.flatMap_cons, List.flatMap_nil, List.append_nil,
          List.append_assoc, h1, List.flatten_cons]
        rw [← List.append_assoc kept, e]; simp [sendMessage]
      · intro x hx
        simp only [run, h, List.singleton_append, List.mem_cons] at hx
        rcases hx with rfl | hx
        · exact hl
        · exact h2 x hx

/-- Framing is unambiguous: two line sequences with a common stream agree as far as both go. -/
theorem lines_prefix (a b : List (List Byte)) (ha : ∀ l ∈ a, Plain l) (hb : ∀ l ∈ b, Plain l)
    (x y : List Byte) (hy : Plain y) (h : a.flatMap sendMessage ++ x = b.flatMap sendMessage ++ y) :
    ∃ rest, b = a ++ rest ∧ x = rest.flatMap sendMessage ++ y := by
  induction a generalizing b with
  | nil => exact ⟨b, rfl, by simpa using h⟩
  | cons l a ih =>
    have hs : ∀ z, searchCRLF (l ++ 13 :: 10 :: z) = some l.length := search_line (ha l (by simp))
    cases b with
    | nil =>
      exfalso
      simp only [List.flatMap_cons, sendMessage, List.append_assoc, List.flatMap_nil, List.nil_append] at h
      have := hs (a.flatMap sendMessage ++ x)
      rw [show l ++ 13 :: 10 :: (a.flatMap sendMessage ++ x) = y by rw [← h]; rfl] at this
      rw [search_none.2 hy] at this; simp at this
    | cons m b =>
      simp only [List.flatMap_cons, sendMessage, List.append_assoc] at h
      have h1 := hs (a.flatMap sendMessage ++ x)
      have h2 := search_line (hb m (by simp)) (b.flatMap sendMessage ++ y)
      have h3 : l ++ 13 :: 10 :: (a.flatMap sendMessage ++ x) = m ++ 13 :: 10 :: (b.flatMap sendMessage ++ y) := h
      rw [h3, h2] at h1
      simp only [Option.some.injEq] at h1
      obtain ⟨rfl, h4⟩ := List.append_inj h3 h1.symm
      simp only [List.cons.injEq, true_and] at h4
      obtain ⟨rest, rfl, hx⟩ := ih b (fun z hz => ha z (by simp [hz])) (fun z hz => hb z (by simp [hz])) h4
      exact ⟨rest, rfl, hx⟩

/-- **C10 (partial: safety).** For every list of lines and every way the stream is cut into read
events (possibly ending inside an unfinished line `tail`), the application receives a prefix of the
lines sent, unmodified, in order, each once; what is not delivered is still buffered in full.
Missing from the full property: that all arrived lines *are* delivered, which is false, see
`c10_pipelined_lines_violated`. -/
theorem c10_no_loss_no_reorder_partial (lines : List (List Byte)) (hl : ∀ l ∈ lines, Plain l)
    (tail : List Byte) (ht : Plain tail) (chunks : List (List Byte))
    (hc : chunks.flatten = lines.flatMap sendMessage ++ tail) :
    ∃ undelivered, lines = (run [] chunks).1 ++ undelivered ∧
      (run [] chunks).2 = undelivered.flatMap sendMessage ++ tail := by
  obtain ⟨h1, h2⟩ := run_conserves [] chunks
  rw [List.nil_append, hc] at h1
  exact lines_prefix _ lines h2 hl _ tail ht h1

theorem plain_of_noLF {l : List Byte} (h : l.count 10 = 0) : Plain l := by
  intro pre post e
  subst e
  simp at h

/-- **C10 (partial: liveness).** If no single read event carries more than one LF byte, every line
is delivered in the very event that completes it: after any history, exactly the completed lines
have been delivered and only the unfinished line is buffered. -/
theorem c10_prompt_delivery_partial (lines : List (List Byte)) (hl : ∀ l ∈ lines, Plain l)
    (tail : List Byte) (ht : Plain tail) (chunks : List (List Byte))
    (hc : chunks.flatten = lines.flatMap sendMessage ++ tail) (h1 : ∀ c ∈ chunks, c.count 10 ≤ 1) :
    run [] chunks = (lines, tail) := by
  have key : ∀ (chunks : List (List Byte)) (kept : List Byte), (∀ c ∈ chunks, c.count 10 ≤ 1) →
      Plain kept → Plain (run kept chunks).2 := by
    intro chunks
    induction chunks with
    | nil => intro kept _ hk; exact hk
    | cons c cs ih =>
      intro kept h1 hk
      rcases onEvent_cases kept c with ⟨hp, h⟩ | ⟨l, r, hpl, e, h⟩
      · simp only [run, h]
        exact ih _ (fun x hx => h1 x (by simp [hx])) hp
      · simp only [run, h]
        apply ih _ (fun x hx => h1 x (by simp [hx]))
        apply plain_of_noLF
        -- the LF of the terminator lies in `c`
        have e' : kept ++ c = (l ++ [13]) ++ 10 :: r := by rw [e]; simp
        rcases List.append_eq_append_iff.1 e' with ⟨w, hw1, hw2⟩ | ⟨w, hw1, hw2⟩
        · have := h1 c (by simp)
          rw [hw2] at this
          simp at this; omega
        · cases w with
          | nil =>
            simp only [List.nil_append] at hw2
            have := h1 c (by simp)
            rw [← hw2] at this
            simp at this; omega
          | cons z w =>
            simp only [List.cons_append, List.cons.injEq] at hw2
            obtain ⟨rfl, hw2⟩ := hw2
            exfalso
            exact hk l w (by rw [hw1]; simp)
  obtain ⟨und, e1, e2⟩ := c10_no_loss_no_reorder_partial lines hl tail ht chunks hc
  have hp := key chunks [] h1 (by rw [← search_none]; rfl)
  cases und with
  | nil => simp at e1 e2; rw [Prod.ext_iff]; exact ⟨e1.symm, e2⟩
  | cons l und =>
    exfalso
    exact hp l (und.flatMap sendMessage ++ tail) (by rw [e2]; simp [sendMessage])

/-- Both hypotheses sets are met by e.g. two lines delivered byte by byte. -/
example : ∃ (lines : List (List Byte)) (chunks : List (List Byte)), lines.length = 2 ∧
    (∀ l ∈ lines, Plain l) ∧ chunks.flatten = lines.flatMap sendMessage ++ [120] ∧ Plain [120] ∧
    ∀ c ∈ chunks, c.count 10 ≤ 1 := by
  refine ⟨[[97, 13], [98]], [[97], [13, 13], [10], [98, 13, 10, 120]], rfl, ?_, ?_, ?_, ?_⟩
  · intro l hl
    apply plain_of_noLF
    simp at hl; rcases hl with rfl | rfl <;> decide
  · decide
  · exact plain_of_noLF (by decide)
  · intro c hc
    simp at hc; rcases hc with rfl | rfl | rfl | rfl <;> decide

/-- **C10 is violated by pipelining**: any two (or more) lines arriving in one read event, with no
later event on the connection, yield only the first line; all the others stay in the buffer. -/
theorem c10_pipelined_lines_violated (l1 l2 : List Byte) (more : List (List Byte)) (h1 : Plain l1) :
    run [] [(l1 :: l2 :: more).flatMap sendMessage] =
      ([l1], (l2 :: more).flatMap sendMessage) := by
  have : onEvent [] ((l1 :: l2 :: more).flatMap sendMessage) = ([l1], (l2 :: more).flatMap sendMessage) := by
    have h := search_line h1 ((l2 :: more).flatMap sendMessage)
    have e : (l1 :: l2 :: more).flatMap sendMessage = l1 ++ 13 :: 10 :: (l2 :: more).flatMap sendMessage := by
      simp [sendMessage]
    unfold onEvent onDataReceived
    rw [List.nil_append, e, h]
    simp
  simp only [run, this]; simp

/-- Each poll event delivers at most one line, so a burst of `n` lines needs `n` further events. -/
theorem one_line_per_event (kept : List Byte) (chunks : List (List Byte)) :
    (run kept chunks).1.length ≤ chunks.length := by
  induction chunks generalizing kept with
  | nil => simp [run]
  | cons c cs ih =>
    have := ih (onEvent kept c).2
    rcases onEvent_cases kept c with ⟨_, h⟩ | ⟨l, r, _, _, h⟩
    · simp only [run, h, List.nil_append, List.length_cons]; simp only [h] at this; omega
    · simp only [run, h, List.length_append, List.length_cons, List.length_nil]; simp only [h] at this; omega

end Ltio.Line
