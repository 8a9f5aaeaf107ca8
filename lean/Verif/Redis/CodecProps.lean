import Verif.Redis.Codec
/-
Where the redis client breaks the pairing of requests and responses (C35), and the encoding of
requests (C47): net_io/codec/redis/redis_request.{h,cc}, thirdparty/resp/resp/encoder.hpp.
-/
namespace Ltio.Redis

/-- The decoder applied to an awaited single reply. -/
theorem loop_one (v : Val) (h : Wf v) (b : List UInt8) (count : Nat) (acc : List Val) (fuel : Nat)
    (hc : dec32 count = 0) : ∃ b', loop (fuel + 1) ⟨⟨.start, b⟩, []⟩ count acc (enc v) =
      some (⟨⟨.start, b'⟩, []⟩, 0, acc ++ [v], []) := by
  obtain ⟨b1, h1⟩ := decode_enc v h b []
  rw [List.append_nil] at h1
  refine ⟨b1, ?_⟩
  simp [loop, h1, hc]

theorem enc_ne (v : Val) : enc v ≠ [] := by cases v <;> simp [enc]

/-- A reply that arrives while the count is 0 makes the count wrap; nothing is delivered. -/
theorem loop_wrap (v : Val) (h : Wf v) (b : List UInt8) (acc : List Val) (fuel : Nat)
    (hf : 2 ≤ fuel) : ∃ b', loop fuel ⟨⟨.start, b⟩, []⟩ 0 acc (enc v) =
      some (⟨⟨.start, b'⟩, []⟩, 2 ^ 32 - 1, acc ++ [v], []) := by
  obtain ⟨f, rfl⟩ : ∃ f, fuel = f + 2 := ⟨fuel - 2, by omega⟩
  obtain ⟨b1, h1⟩ := decode_enc v h b []
  rw [List.append_nil] at h1
  refine ⟨b1, ?_⟩
  have e : dec32 0 = 2 ^ 32 - 1 := rfl
  have e2 : decode ⟨⟨.start, b1⟩, []⟩ [] = .inc ⟨⟨.start, b1⟩, []⟩ 0 := decodeChunk_nil _
  simp [loop, h1, e, e2]

/-- **C35 violated: a request sent from the response callback is never answered.**  The queued
client channel sends the next waiting request from inside the callback for the previous response
(queued_channel.cc:117-130).  `OnDataReceived` then resets the number of awaited replies to 0
(resp_codec_service.cc:99-101).  When the complete and correct reply to the second request arrives,
no response is delivered, and a further request aborts the process (`CHECK`, line 142). -/
theorem c35_violation_reentrant (v w : Val) (hv : Wf v) (hw : Wf w) :
    ∃ c', run (start false false true)
        [.send 1 true, .data (enc v) (some 1), .data (enc w) none] = some c' ∧
      c'.out = [.ready, .wire 1, .deliver [v], .wire 1] ∧ c'.count = 2 ^ 32 - 1 ∧
      ∀ k ok, step c' (.send k ok) = none := by
  obtain ⟨b1, h1⟩ := loop_one v hv [] 1 [] (enc v).length rfl
  have hl : 0 < (enc w).length := List.length_pos_iff.2 (enc_ne w)
  obtain ⟨b2, h2⟩ := loop_wrap w hw b1 [] ((enc w).length + 1) (by omega)
  have e1 : step (start false false true) (.send 1 true) =
      some ⟨⟨⟨.start, []⟩, []⟩, 1, none, [], false, false, [.ready, .wire 1]⟩ := rfl
  have e2 : step ⟨⟨⟨.start, []⟩, []⟩, 1, none, [], false, false, [.ready, .wire 1]⟩
      (.data (enc v) (some 1)) = some ⟨⟨⟨.start, b1⟩, []⟩, 0, none, [], false, false,
        [.ready, .wire 1, .deliver [v], .wire 1]⟩ := by
    simp [step, onData, h1, sendRequest]
  have e3 : step ⟨⟨⟨.start, b1⟩, []⟩, 0, none, [], false, false,
        [.ready, .wire 1, .deliver [v], .wire 1]⟩ (.data (enc w) none) =
      some ⟨⟨⟨.start, b2⟩, []⟩, 2 ^ 32 - 1, some [w], [], false, false,
        [.ready, .wire 1, .deliver [v], .wire 1]⟩ := by
    simp [step, onData, h2]
  refine ⟨⟨⟨⟨.start, b2⟩, []⟩, 2 ^ 32 - 1, some [w], [], false, false,
        [.ready, .wire 1, .deliver [v], .wire 1]⟩, ?_, rfl, rfl, ?_⟩
  · simp only [run, e1, e2, e3]
  · intro k ok
    simp [step, sendRequest]

/-- **C35 violated: an unsolicited reply.**  A reply that arrives while no request is outstanding
(for example the late reply to a request that timed out) makes the next request abort the
process. -/
theorem c35_violation_unsolicited (v : Val) (hv : Wf v) :
    ∃ c', run (start false false true) [.data (enc v) none] = some c' ∧
      ∀ k ok, step c' (.send k ok) = none := by
  have hl : 0 < (enc v).length := List.length_pos_iff.2 (enc_ne v)
  obtain ⟨b2, h2⟩ := loop_wrap v hv [] [] ((enc v).length + 1) (by omega)
  have e3 : step (start false false true) (.data (enc v) none) =
      some ⟨⟨⟨.start, b2⟩, []⟩, 2 ^ 32 - 1, some [v], [], false, false, [.ready]⟩ := by
    have : start false false true = ⟨⟨⟨.start, []⟩, []⟩, 0, none, [], false, false, [.ready]⟩ := rfl
    rw [this]
    simp [step, onData, h2]
  refine ⟨⟨⟨⟨.start, b2⟩, []⟩, 2 ^ 32 - 1, some [v], [], false, false, [.ready]⟩, ?_, ?_⟩
  · simp only [run, e3]
  · intro k ok
    simp [step, sendRequest]

theorem decode_bad_line (sign bad : UInt8) (hs : sign.toNat = 45 ∨ sign.toNat = 43)
    (t rest : List UInt8) (ht : ∀ c ∈ t, 32 ≤ c.toNat ∧ c.toNat < 127)
    (hbad : bad.toNat < 32 ∨ 127 ≤ bad.toNat) (h13 : bad.toNat ≠ 13) (b : List UInt8) :
    ∃ b', decode ⟨⟨.start, b⟩, []⟩ (sign :: (t ++ bad :: rest)) =
      .err ⟨⟨.start, b'⟩, []⟩ (t.length + 2) := by
  have key : ∀ (S L : Stat), notBulk S → (∀ b c, act S b c = lineStep b c S L) →
      ∀ (t : List UInt8), (∀ c ∈ t, 32 ≤ c.toNat ∧ c.toNat < 127) → ∀ (b0 : List UInt8) (i : Nat),
      scan ⟨S, b0⟩ i (t ++ bad :: rest) = .err ⟨.start, b0 ++ t⟩ (i + t.length + 1) := by
    intro S L hS hact t
    induction t with
    | nil =>
      intro _ b0 i
      rw [List.nil_append, scan_act _ hS, hact]
      have hp : printable bad = false := by
        simp only [printable, Bool.and_eq_false_iff, decide_eq_false_iff_not]; omega
      simp [lineStep, h13, hp]
    | cons c cs ih =>
      intro ht b0 i
      rw [List.cons_append, scan_act _ hS, hact]
      have hc := ht c List.mem_cons_self
      have hc13 : ¬ c.toNat = 13 := by omega
      have hp : printable c = true := by simp [printable, hc]
      simp only [lineStep, hc13, hp, if_true, if_false]
      rw [ih (fun c' hc' => ht c' (List.mem_cons_of_mem _ hc')) (b0 ++ [c]) (i + 1)]
      simp only [List.append_assoc, List.cons_append, List.nil_append, List.length_cons]
      congr 1
      omega
  refine ⟨[] ++ t, ?_⟩
  rw [decode, decodeChunk_eq]
  rcases hs with hs | hs
  · rw [scan_start _ _ _ _ ⟨.errStr, []⟩ (by simp [act, hs]),
      key .errStr .errLf (by intro m; simp) (fun _ _ => rfl) t ht]
    simp only [R.err.injEq, true_and]
    omega
  · rw [scan_start _ _ _ _ ⟨.str, []⟩ (by simp [act, hs]),
      key .str .strLf (by intro m; simp) (fun _ _ => rfl) t ht]
    simp only [R.err.injEq, true_and]
    omega

/-- **C35 violated: a status or error line with a byte outside printable ASCII** (a tab, or any
UTF-8 letter: RESP only excludes CR and LF) is dropped by the client: the request stays unanswered
although its whole reply has arrived, and the rest of the line stays in the buffer to be taken for
the start of a reply. -/
theorem c35_violation_text (sign bad : UInt8) (hs : sign.toNat = 45 ∨ sign.toNat = 43)
    (t u : List UInt8) (ht : ∀ c ∈ t, 32 ≤ c.toNat ∧ c.toNat < 127)
    (hbad : bad.toNat < 32 ∨ 127 ≤ bad.toNat) (h13 : bad.toNat ≠ 13) :
    ∃ c', run (start false false true)
        [.send 1 true, .data (sign :: (t ++ bad :: (u ++ crlf))) none] = some c' ∧
      c'.out = [.ready, .wire 1] ∧ c'.count = 1 ∧ c'.buf = u ++ crlf := by
  obtain ⟨b1, h1⟩ := decode_bad_line sign bad hs t (u ++ crlf) ht hbad h13 []
  have e1 : step (start false false true) (.send 1 true) =
      some ⟨⟨⟨.start, []⟩, []⟩, 1, none, [], false, false, [.ready, .wire 1]⟩ := rfl
  have hd : (sign :: (t ++ bad :: (u ++ crlf))).drop (t.length + 2) = u ++ crlf := by
    have : sign :: (t ++ bad :: (u ++ crlf)) = (sign :: (t ++ [bad])) ++ (u ++ crlf) := by simp
    rw [this]
    have h2 : t.length + 2 = (sign :: (t ++ [bad])).length := by simp
    rw [h2, List.drop_left]
  have e2 : step ⟨⟨⟨.start, []⟩, []⟩, 1, none, [], false, false, [.ready, .wire 1]⟩
      (.data (sign :: (t ++ bad :: (u ++ crlf))) none) =
      some ⟨⟨⟨.start, b1⟩, []⟩, 1, some [], u ++ crlf, false, false, [.ready, .wire 1]⟩ := by
    simp only [step, onData, List.nil_append, Option.getD_none, loop, h1, hd]
    rfl
  refine ⟨⟨⟨⟨.start, b1⟩, []⟩, 1, some [], u ++ crlf, false, false, [.ready, .wire 1]⟩,
    ?_, rfl, rfl, rfl⟩
  simp only [run, e1, e2]

/-- **C35 violated: a number of 32 or more characters** in a reply overruns the decoder's 32-byte
buffer (an assertion failure in debug builds). -/
theorem c35_violation_number (t rest : List UInt8) (ht : IsNum t) (hlen : 32 ≤ t.length)
    (sign : UInt8) (hs : sign.toNat = 58 ∨ sign.toNat = 36 ∨ sign.toNat = 42) :
    run (start false false true) [.send 1 true, .data (sign :: (t ++ crlf ++ rest)) none] = none := by
  have hne : [] ++ t ≠ [] := by
    intro h0; rw [List.nil_append] at h0; rw [h0] at hlen; simp at hlen
  have hlt : ¬ t.length < 32 := by omega
  have hdec : decode ⟨⟨.start, []⟩, []⟩ (sign :: (t ++ crlf ++ rest)) = .crash := by
    simp only [crlf, List.append_assoc, List.cons_append, List.nil_append]
    rw [decode, decodeChunk_eq]
    rcases hs with hs | hs | hs
    · rw [scan_start _ _ _ _ ⟨.int, []⟩ (by simp [act, hs]),
        scan_num .int .intLf (by intro m; simp) (fun _ _ => rfl) t ht _ _ _ hne,
        scan_act _ (by intro m; simp)]
      simp [act, hlt]
    · rw [scan_start _ _ _ _ ⟨.bulkSize, []⟩ (by simp [act, hs]),
        scan_num .bulkSize .bulkSizeLf (by intro m; simp) (fun _ _ => rfl) t ht _ _ _ hne,
        scan_act _ (by intro m; simp)]
      simp [act, hlt]
    · rw [scan_start _ _ _ _ ⟨.arrSize, []⟩ (by simp [act, hs]),
        scan_num .arrSize .arrSizeLf (by intro m; simp) (fun _ _ => rfl) t ht _ _ _ hne,
        scan_act _ (by intro m; simp)]
      simp [act, hlt]
  have e1 : step (start false false true) (.send 1 true) =
      some ⟨⟨⟨.start, []⟩, []⟩, 1, none, [], false, false, [.ready, .wire 1]⟩ := rfl
  simp only [run, e1]
  simp only [step, onData, List.nil_append, loop, hdec]

/-- **C35 violated: the state after an error depends on the chunking.**  A nested array broken by a
bad byte in one chunk leaves the decoder clean; the same bytes in two chunks leave the outer array
open, so that later replies are swallowed as its elements. -/
theorem c35_violation_stale_array (n m : Nat) (hn : 0 < n) (hn' : n < 2 ^ 63) (hm : 0 < m)
    (hm' : m < 2 ^ 63) :
    (∃ k, decode Dec.init ((42 :: (decText n ++ crlf)) ++ (42 :: (decText m ++ crlf)) ++ [33]) =
      .err ⟨⟨.start, []⟩, []⟩ k) ∧
    (∃ d, decode Dec.init ((42 :: (decText n ++ crlf)) ++ (42 :: (decText m ++ crlf))) =
        .inc d ((42 :: (decText n ++ crlf)) ++ (42 :: (decText m ++ crlf))).length ∧
      decode d [33] = .err ⟨⟨.start, []⟩, [(n, [])]⟩ 1) := by
  obtain ⟨n', rfl⟩ : ∃ n', n = n' + 1 := ⟨n - 1, by omega⟩
  obtain ⟨m', rfl⟩ : ∃ m', m = m' + 1 := ⟨m - 1, by omega⟩
  have hdrop : ∀ (k : Nat) (y : List UInt8), (42 :: (decText k ++ crlf ++ y)).drop
      (0 + (decText k).length + 3) = y := by
    intro k y
    rw [← List.cons_append]
    have : 0 + (decText k).length + 3 = (42 :: (decText k ++ crlf)).length := by simp [crlf]
    rw [this, List.drop_left]
  have hbad : ∀ b, scan ⟨.start, b⟩ 0 [33] = .err ⟨.start, []⟩ 1 := by
    intro b
    rw [scan_act _ (by intro m; simp)]
    rfl
  have hhdr : ∀ (k : Nat), k + 1 < 2 ^ 63 → ∀ (b y : List UInt8), y ≠ [] →
      decodeChunk ⟨.start, b⟩ (42 :: (decText (k + 1) ++ crlf ++ y)) =
        (arrLoop ⟨.start, []⟩ (k + 1) [] 0 y).shift (0 + (decText (k + 1)).length + 3) := by
    intro k hk b y hy
    have hy' := List.length_pos_iff.2 hy
    rw [decodeChunk_eq, scan_arr _ hk]
    have h0 : ¬ (k + 1 = 0) := by omega
    have h1 : ¬ (0 + (decText (k + 1)).length + 3 =
        (42 :: (decText (k + 1) ++ crlf ++ y)).length) := by
      simp only [List.length_cons, List.length_append, crlf, List.length_nil]; omega
    simp only [h0, h1, if_false, hdrop]
  have hend : ∀ (k : Nat), k + 1 < 2 ^ 63 → ∀ (b : List UInt8),
      decodeChunk ⟨.start, b⟩ (42 :: (decText (k + 1) ++ crlf)) =
        .inc ⟨⟨.start, []⟩, [(k + 1, [])]⟩ (42 :: (decText (k + 1) ++ crlf)).length := by
    intro k hk b
    have := scan_arr (k + 1) hk b 0 []
    rw [List.append_nil] at this
    rw [decodeChunk_eq, this]
    have h0 : ¬ (k + 1 = 0) := by omega
    have h1 : 0 + (decText (k + 1)).length + 3 = (42 :: (decText (k + 1) ++ crlf)).length := by
      simp [crlf]
    simp only [h0, if_false]
    rw [← h1]
    simp only [if_true]
  constructor
  · refine ⟨0 + (decText (n' + 1)).length + 3 + (0 + (0 + (decText (m' + 1)).length + 3 + (0 + 1))), ?_⟩
    have e : (42 :: (decText (n' + 1) ++ crlf)) ++ (42 :: (decText (m' + 1) ++ crlf)) ++ [33] =
        42 :: (decText (n' + 1) ++ crlf ++ (42 :: (decText (m' + 1) ++ crlf ++ [33]))) := by simp
    rw [e, Dec.init, decode, hhdr n' hn' _ _ (by simp), arrLoop_succ, hhdr m' hm' _ _ (by simp),
      arrLoop_succ, decodeChunk_eq, hbad]
    rfl
  · refine ⟨⟨⟨.start, []⟩, [(n' + 1, []), (m' + 1, [])]⟩, ?_, ?_⟩
    · have e : (42 :: (decText (n' + 1) ++ crlf)) ++ (42 :: (decText (m' + 1) ++ crlf)) =
          42 :: (decText (n' + 1) ++ crlf ++ (42 :: (decText (m' + 1) ++ crlf))) := by simp
      rw [e, Dec.init, decode, hhdr n' hn' _ _ (by simp), arrLoop_succ, hend m' hm']
      simp only [R.shift, R.inc.injEq, true_and]
      simp only [List.length_cons, List.length_append, crlf, List.length_nil]
      omega
    · rw [decode]
      simp only [decodeArr, arrTail]
      rw [arrLoop_succ, decodeChunk_eq, hbad]

/-- The hypotheses of `c35_pairing_partial` are met by non-trivial exchanges. -/
example : ∃ es : List Exchange, (∀ e ∈ es, e.Valid) ∧ es.length = 2 ∧
    (∃ e ∈ es, e.replies.length = 2 ∧ e.chunks.length = 2) := by
  refine ⟨[⟨[.int (-5)], [enc (.int (-5))]⟩,
    ⟨[.arr [.bulk [1, 2], .null], .str [79, 75]],
      [[42], (encs [.arr [.bulk [1, 2], .null], .str [79, 75]]).tail]⟩], ?_, rfl, ?_⟩
  · intro e he
    simp only [List.mem_cons, List.not_mem_nil, or_false] at he
    rcases he with rfl | rfl
    · refine ⟨?_, by simp, by simp, by simp [encs], ?_⟩
      · simp [Wfs, Wf]
      · intro x hx
        simp only [List.mem_singleton] at hx
        subst hx
        exact enc_ne _
    · refine ⟨?_, by simp, by simp, ?_, ?_⟩
      · simp [Wfs, Wf]
      · simp [encs, enc]
      · intro x hx
        simp only [List.mem_cons, List.not_mem_nil, or_false] at hx
        rcases hx with rfl | rfl
        · simp
        · simp [encs, enc, crlf]
  · exact ⟨_, by simp only [List.mem_cons]; exact Or.inr (Or.inl rfl), rfl, rfl⟩

end Ltio.Redis
