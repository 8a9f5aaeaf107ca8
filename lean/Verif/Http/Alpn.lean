import Mathlib.Data.List.Basic
import Mathlib.Tactic.ByContra
import Mathlib.Tactic.FinCases
/-
Choice of the protocol in the TLS handshake of HTTP/2 (net_io/codec/http/h2/h2_tls_context.cc): `select_proto`, `select_h2`,
`alpn_select_proto_cb`, `client_select_next_proto_cb`, `get_default_alpn`.  OpenSSL hands over the peer's list as bytes.
Bytes are numbers below 256.  A pointer into the list is an index; the pointer that leaves the list (up to 255 bytes behind its end,
`p += *p + 1`) is only compared.
-/
namespace Ltio.Http.Alpn

abbrev Byte := Fin 256

/-- The bytes of an ASCII string. -/
def ascii (s : String) : List Byte := s.toList.map (fun c => Fin.ofNat 256 c.toNat)

/-- `std::equal(begin(key), end(key), p)` (h2_tls_context.cc:57): compares from the left up to the first difference; outer `none`: a byte
behind the list is read. -/
def equalAt (inp : List Byte) : List Byte → Nat → Option Bool
  | [], _ => some true
  | k :: ks, p =>
    match inp[p]? with
    | none => none
    | some b => if k = b then equalAt inp ks (p + 1) else some false

/-- `select_proto` (h2_tls_context.cc:51-65); outer `none`: a byte behind the list is read; the result is where the name starts and how
long it is. -/
def selectProto (inp key : List Byte) (p : Nat) : Option (Option (Nat × Nat)) :=
  if p + key.length ≤ inp.length then
    match equalAt inp key p with
    | none => none
    | some e =>
      match hb : inp[p]? with
      | none => none
      | some b => if e = true then some (some (p + 1, b.val)) else selectProto inp key (p + (b.val + 1))
  else some none
termination_by inp.length - p
decreasing_by
  have : p < inp.length := by
    rcases Nat.lt_or_ge p inp.length with h | h
    · exact h
    · rw [List.getElem?_eq_none h] at hb; simp at hb
  omega

/-- `NGHTTP2_H2_ALPN`, `NGHTTP2_H2_16_ALPN`, `NGHTTP2_H2_14_ALPN` (h2_tls_context.cc:35-45). -/
def keyH2 : List Byte := 2 :: ascii "h2"
def keyH16 : List Byte := 5 :: ascii "h2-16"
def keyH14 : List Byte := 5 :: ascii "h2-14"

/-- `select_h2` (h2_tls_context.cc:67-74). -/
def selectH2 (inp : List Byte) : Option (Option (Nat × Nat)) :=
  match selectProto inp keyH2 0 with
  | none => none
  | some (some r) => some (some r)
  | some none =>
    match selectProto inp keyH16 0 with
    | none => none
    | some (some r) => some (some r)
    | some none => selectProto inp keyH14 0

/-- What the callbacks tell OpenSSL (h2_tls_context.cc:127-152): the name, or `NOACK`. -/
inductive Answer | chosen (name : List Byte) | noAck | outOfBounds
deriving DecidableEq

/-- `alpn_select_proto_cb`, `client_select_next_proto_cb` (h2_tls_context.cc:127-152).  OpenSSL copies `outlen` bytes from `out`. -/
def callback (inp : List Byte) : Answer :=
  match selectH2 inp with
  | none => .outOfBounds
  | some none => .noAck
  | some (some (o, n)) => if o + n ≤ inp.length then .chosen ((inp.drop o).take n) else .outOfBounds

/-- `get_default_alpn` (h2_tls_context.cc:88-100): what a client offers, and what the server advertises (NPN). -/
def defaultAlpn : List Byte := keyH2 ++ keyH16 ++ keyH14

/-! ### Specification -/

/-- A list of protocol names on the wire (RFC 7301, 3.1). -/
def wire : List (List Byte) → List Byte
  | [] => []
  | n :: t => Fin.ofNat 256 n.length :: (n ++ wire t)

/-- Names have 1 to 255 bytes. -/
def Names (l : List (List Byte)) : Prop := ∀ n ∈ l, 1 ≤ n.length ∧ n.length ≤ 255

/-- What is to be chosen. -/
def best (l : List (List Byte)) : Answer :=
  if ascii "h2" ∈ l then .chosen (ascii "h2")
  else if ascii "h2-16" ∈ l then .chosen (ascii "h2-16")
  else if ascii "h2-14" ∈ l then .chosen (ascii "h2-14")
  else .noAck

/-! ### Proofs -/

theorem equalAt_safe (inp : List Byte) (key : List Byte) (p : Nat) (h : p + key.length ≤ inp.length) :
    equalAt inp key p = some (decide ((inp.drop p).take key.length = key)) := by
  induction key generalizing p with
  | nil => simp [equalAt]
  | cons k ks ih =>
    simp only [List.length_cons] at h
    have hp : p < inp.length := by omega
    rw [equalAt, List.getElem?_eq_getElem hp, List.drop_eq_getElem_cons hp]
    simp only [List.length_cons, List.take_succ_cons, List.cons.injEq]
    by_cases hk : k = inp[p]
    · rw [if_pos hk, ih (p + 1) (by omega)]
      simp [hk]
    · rw [if_neg hk]
      simp [Ne.symm hk]

theorem selectProto_unfold (inp key : List Byte) (p : Nat) (hk : key ≠ []) (h : p + key.length ≤ inp.length) :
    ∃ b, inp[p]? = some b ∧ selectProto inp key p =
      if (inp.drop p).take key.length = key then some (some (p + 1, b.val)) else selectProto inp key (p + (b.val + 1)) := by
  have hl : 0 < key.length := List.length_pos_of_ne_nil hk
  have hp : p < inp.length := by omega
  have hb : inp[p]? = some inp[p] := List.getElem?_eq_getElem hp
  refine ⟨inp[p], hb, ?_⟩
  rw [selectProto.eq_def, if_pos h, equalAt_safe inp key p h]
  simp only
  split
  · rename_i hn; rw [hn] at hb; simp at hb
  · rename_i b hn
    rw [hn] at hb
    simp only [Option.some.injEq] at hb
    subst hb
    simp

theorem selectProto_end (inp key : List Byte) (p : Nat) (h : ¬ p + key.length ≤ inp.length) : selectProto inp key p = some none := by
  rw [selectProto.eq_def, if_neg h]

/-- A key begins with its length. -/
def KeyOk (key : List Byte) : Prop := ∃ n : List Byte, 1 ≤ n.length ∧ n.length ≤ 255 ∧ key = Fin.ofNat 256 n.length :: n

theorem keyOk_h2 : KeyOk keyH2 := ⟨ascii "h2", by decide, by decide, by decide⟩
theorem keyOk_h16 : KeyOk keyH16 := ⟨ascii "h2-16", by decide, by decide, by decide⟩
theorem keyOk_h14 : KeyOk keyH14 := ⟨ascii "h2-14", by decide, by decide, by decide⟩

theorem selectProto_safe (inp : List Byte) (n : List Byte) (h1 : 1 ≤ n.length) (h2 : n.length ≤ 255) (p : Nat) :
    selectProto inp (Fin.ofNat 256 n.length :: n) p = some none ∨
    ∃ o, selectProto inp (Fin.ofNat 256 n.length :: n) p = some (some (o, n.length)) ∧ o + n.length ≤ inp.length ∧ (inp.drop o).take n.length = n := by
  generalize hm : inp.length - p = m
  induction m using Nat.strongRecOn generalizing p with
  | _ m ih =>
    by_cases h : p + (Fin.ofNat 256 n.length :: n).length ≤ inp.length
    · obtain ⟨b, hb, e⟩ := selectProto_unfold inp (Fin.ofNat 256 n.length :: n) p (by simp) h
      rw [e]
      simp only [List.length_cons] at h
      have hp : p < inp.length := by omega
      by_cases hk : (inp.drop p).take (Fin.ofNat 256 n.length :: n).length = Fin.ofNat 256 n.length :: n
      · rw [if_pos hk]
        right
        rw [List.drop_eq_getElem_cons hp] at hk
        simp only [List.length_cons, List.take_succ_cons, List.cons.injEq] at hk
        have hbv : b.val = n.length := by
          rw [List.getElem?_eq_getElem hp] at hb
          simp only [Option.some.injEq] at hb
          rw [← hb, hk.1]
          exact Nat.mod_eq_of_lt (by omega)
        refine ⟨p + 1, by rw [hbv], by omega, hk.2⟩
      · rw [if_neg hk]
        exact ih (inp.length - (p + (b.val + 1))) (by omega) _ rfl
    · left
      exact selectProto_end _ _ _ h

/-- C163: whatever bytes the peer sends as its list, nothing behind them is read, and what is chosen is one of the three names, found in
the list. -/
theorem c163_safe (inp : List Byte) :
    callback inp = .noAck ∨ ∃ o n, (n = ascii "h2" ∨ n = ascii "h2-16" ∨ n = ascii "h2-14") ∧ callback inp = .chosen n ∧
      o + n.length ≤ inp.length ∧ (inp.drop o).take n.length = n := by
  have k1 := selectProto_safe inp (ascii "h2") (by decide) (by decide) 0
  have k2 := selectProto_safe inp (ascii "h2-16") (by decide) (by decide) 0
  have k3 := selectProto_safe inp (ascii "h2-14") (by decide) (by decide) 0
  have e1 : (Fin.ofNat 256 (ascii "h2").length :: ascii "h2") = keyH2 := by decide
  have e2 : (Fin.ofNat 256 (ascii "h2-16").length :: ascii "h2-16") = keyH16 := by decide
  have e3 : (Fin.ofNat 256 (ascii "h2-14").length :: ascii "h2-14") = keyH14 := by decide
  rw [e1] at k1; rw [e2] at k2; rw [e3] at k3
  unfold callback selectH2
  rcases k1 with k1 | ⟨o, k1, hl, ht⟩
  · rw [k1]
    simp only
    rcases k2 with k2 | ⟨o, k2, hl, ht⟩
    · rw [k2]
      simp only
      rcases k3 with k3 | ⟨o, k3, hl, ht⟩
      · rw [k3]; exact Or.inl rfl
      · rw [k3]
        simp only
        rw [if_pos hl, ht]
        exact Or.inr ⟨o, _, Or.inr (Or.inr rfl), rfl, hl, ht⟩
    · rw [k2]
      simp only
      rw [if_pos hl, ht]
      exact Or.inr ⟨o, _, Or.inr (Or.inl rfl), rfl, hl, ht⟩
  · rw [k1]
    simp only
    rw [if_pos hl, ht]
    exact Or.inr ⟨o, _, Or.inl rfl, rfl, hl, ht⟩

theorem wire_append (a b : List (List Byte)) : wire (a ++ b) = wire a ++ wire b := by
  induction a with
  | nil => rfl
  | cons n t ih => simp only [List.cons_append, wire, ih, List.append_assoc]

theorem ofNat_inj {a b : Nat} (ha : a ≤ 255) (hb : b ≤ 255) (h : (Fin.ofNat 256 a) = Fin.ofNat 256 b) : a = b := by
  have := congrArg Fin.val h
  simp only [Fin.ofNat] at this
  omega

/-- One name looked for in a well-formed list. -/
theorem selectProto_wire (pre l : List (List Byte)) (hl : Names l) (n : List Byte) (h1 : 1 ≤ n.length) (h2 : n.length ≤ 255) :
    (selectProto (wire (pre ++ l)) (Fin.ofNat 256 n.length :: n) (wire pre).length = some none ↔ n ∉ l) := by
  induction l generalizing pre with
  | nil =>
    rw [List.append_nil]
    have := selectProto_end (wire pre) (Fin.ofNat 256 n.length :: n) (wire pre).length (by simp)
    simp [this]
  | cons m t ih =>
    have hm := hl m (by simp)
    have ht : Names t := fun x hx => hl x (List.mem_cons_of_mem _ hx)
    have ed : (wire (pre ++ m :: t)).drop (wire pre).length = Fin.ofNat 256 m.length :: (m ++ wire t) := by
      rw [wire_append]; simp [wire]
    have ell : (wire (pre ++ m :: t)).length = (wire pre).length + 1 + m.length + (wire t).length := by
      rw [wire_append]; simp [wire]; omega
    have step : selectProto (wire (pre ++ m :: t)) (Fin.ofNat 256 n.length :: n) ((wire pre).length + (m.length + 1)) = some none ↔ n ∉ t := by
      have := ih (pre ++ [m]) ht
      have e : (wire (pre ++ [m])).length = (wire pre).length + (m.length + 1) := by
        rw [wire_append]; simp [wire]
      rw [e, List.append_assoc] at this
      exact this
    by_cases h : (wire pre).length + (Fin.ofNat 256 n.length :: n).length ≤ (wire (pre ++ m :: t)).length
    · obtain ⟨b, hb, e⟩ := selectProto_unfold _ (Fin.ofNat 256 n.length :: n) _ (by simp) h
      rw [e, ed]
      have hbv : b.val = m.length := by
        have : (wire (pre ++ m :: t))[(wire pre).length]? = some (Fin.ofNat 256 m.length) := by
          have := congrArg List.head? ed
          rw [List.head?_drop] at this
          simpa using this
        rw [this] at hb
        simp only [Option.some.injEq] at hb
        rw [← hb]
        exact Nat.mod_eq_of_lt (by omega)
      rw [hbv]
      by_cases hmn : m = n
      · subst hmn
        rw [if_pos (by simp)]
        simp
      · rw [if_neg, step]
        · simp [Ne.symm hmn]
        · simp only [List.length_cons, List.take_succ_cons, List.cons.injEq]
          rintro ⟨e1, e2⟩
          have el : m.length = n.length := ofNat_inj hm.2 h2 e1
          rw [← el, List.take_left] at e2
          exact hmn e2
    · rw [selectProto_end _ _ _ h]
      simp only [List.length_cons, ell] at h
      have hnm : n ∉ t := by
        intro hc
        have hlen : ∀ (t : List (List Byte)), n ∈ t → n.length + 1 ≤ (wire t).length := by
          intro t
          induction t with
          | nil => simp
          | cons x t ih2 =>
            intro hx
            simp only [wire, List.length_cons, List.length_append]
            rcases List.mem_cons.1 hx with rfl | hx
            · omega
            · have := ih2 hx; omega
        have := hlen t hc
        omega
      have hne : n ≠ m := by rintro rfl; omega
      simp [hnm, hne]

/-- C163: of a well-formed list the best protocol is chosen: `h2` if it is there, else `h2-16`, else `h2-14`, whatever the peer's order, and
none if none of them is in it. -/
theorem c163_choice (l : List (List Byte)) (hl : Names l) : callback (wire l) = best l := by
  have k : ∀ n : List Byte, 1 ≤ n.length → n.length ≤ 255 → (selectProto (wire l) (Fin.ofNat 256 n.length :: n) 0 = some none ↔ n ∉ l) := by
    intro n h1 h2
    exact selectProto_wire [] l hl n h1 h2
  have s1 := selectProto_safe (wire l) (ascii "h2") (by decide) (by decide) 0
  have s2 := selectProto_safe (wire l) (ascii "h2-16") (by decide) (by decide) 0
  have s3 := selectProto_safe (wire l) (ascii "h2-14") (by decide) (by decide) 0
  have k1 := k (ascii "h2") (by decide) (by decide)
  have k2 := k (ascii "h2-16") (by decide) (by decide)
  have k3 := k (ascii "h2-14") (by decide) (by decide)
  have e1 : (Fin.ofNat 256 (ascii "h2").length :: ascii "h2") = keyH2 := by decide
  have e2 : (Fin.ofNat 256 (ascii "h2-16").length :: ascii "h2-16") = keyH16 := by decide
  have e3 : (Fin.ofNat 256 (ascii "h2-14").length :: ascii "h2-14") = keyH14 := by decide
  rw [e1] at k1 s1; rw [e2] at k2 s2; rw [e3] at k3 s3
  unfold callback selectH2 best
  rcases s1 with s1 | ⟨o, s1, ho, ht⟩
  · rw [if_neg (k1.1 s1), s1]
    simp only
    rcases s2 with s2 | ⟨o, s2, ho, ht⟩
    · rw [if_neg (k2.1 s2), s2]
      simp only
      rcases s3 with s3 | ⟨o, s3, ho, ht⟩
      · rw [if_neg (k3.1 s3), s3]
      · have hin : ascii "h2-14" ∈ l := by
          by_contra hc
          rw [k3.2 hc] at s3; simp at s3
        rw [if_pos hin, s3]
        simp only
        rw [if_pos ho, ht]
    · have hin : ascii "h2-16" ∈ l := by
        by_contra hc
        rw [k2.2 hc] at s2; simp at s2
      rw [if_pos hin, s2]
      simp only
      rw [if_pos ho, ht]
  · have hin : ascii "h2" ∈ l := by
      by_contra hc
      rw [k1.2 hc] at s1; simp at s1
    rw [if_pos hin, s1]
    simp only
    rw [if_pos ho, ht]

/-- C163: what this library's clients offer and its servers advertise is a well-formed list of the three names; offered to this
library's other side it yields `h2`. -/
theorem c163_own : defaultAlpn = wire [ascii "h2", ascii "h2-16", ascii "h2-14"] ∧ callback defaultAlpn = .chosen (ascii "h2") := by
  have e : defaultAlpn = wire [ascii "h2", ascii "h2-16", ascii "h2-14"] := by decide
  refine ⟨e, ?_⟩
  rw [e, c163_choice _ (by intro n hn; fin_cases hn <;> decide)]
  decide

/-! ### Examples -/

example : best [ascii "http/1.1", ascii "h2-14", ascii "h2"] = .chosen (ascii "h2") := by decide
example : callback (wire [ascii "http/1.1", ascii "h2-14", ascii "h2-16"]) = .chosen (ascii "h2-16") := by
  rw [c163_choice _ (by intro n hn; fin_cases hn <;> decide)]; decide
example : callback (wire [ascii "http/1.1", ascii "spdy/3"]) = .noAck := by
  rw [c163_choice _ (by intro n hn; fin_cases hn <;> decide)]; decide

end Ltio.Http.Alpn
