import Verif.Url.Props

/-
C37, continued: `ParseURI`, host resolution, and the inputs for which parsing goes wrong.
-/
namespace Ltio.Url
open Ltio.Text

attribute [local irreducible] len32 npos split substr

/-! ### ParseURI -/

/-- Extraction of a decimal number followed by something that is not a digit. -/
theorem extract_decimal_then (old : Option Nat) (n : Nat) (h : n < 65536) (x : Str)
    (hx : ∀ c, x.head? = some c → isDigit c = false) : extractU16 old (decimal n ++ x) = some n := by
  have hne : decimal n ≠ [] := Nat.toDigits_ne_nil
  have hd : ∀ c ∈ decimal n, isDigit c = true := fun c hc => digit_of_toDigits hc
  have hv := digitsVal_decimal n
  revert hne hd hv
  generalize decimal n = ds
  intro hne hd hv
  have htw : (ds ++ x).takeWhile isDigit = ds := by
    rw [List.takeWhile_append_of_pos hd]
    cases x with
    | nil => simp
    | cons c x => rw [List.takeWhile_cons, hx c rfl]; simp
  cases ds with
  | nil => exact absurd rfl hne
  | cons c t =>
    have hc := hd c (by simp)
    have hsp : isSpace c = false := by
      simp only [isDigit, Bool.and_eq_true, decide_eq_true_eq] at hc
      simp only [isSpace, Bool.or_eq_false_iff, beq_eq_false_iff_ne, Bool.and_eq_false_iff,
        decide_eq_false_iff_not]
      omega
    have h1 : ¬ c.toNat = 45 ∧ ¬ c.toNat = 43 := by
      simp only [isDigit, Bool.and_eq_true, decide_eq_true_eq] at hc
      omega
    rw [List.cons_append] at htw ⊢
    unfold extractU16
    rw [List.dropWhile_cons, hsp]
    simp only [Bool.false_eq_true, if_false, extractNum, h1.1, h1.2, htw, hv]
    congr 1; omega

/-- `:port` followed by any text. -/
def uriPort : Option (Nat × Str) → Str
  | none => []
  | some (n, x) => ':' :: (decimal n ++ x)

/-- The address text for `ParseURI`. -/
def uriText (scheme : Option Str) (host : Str) (port : Option (Nat × Str)) : Str :=
  (match scheme with
   | none => []
   | some s => s ++ [':', '/', '/']) ++
  (host ++ uriPort port)

theorem parseURI_core (resolve : Str → Gai) (pre host : Str) (out : UriOut) (uri : Str)
    (sch : Option Nat) (hs : find uri schemeSep 0 = sch) (hl : uri.length < 2 ^ 32)
    (hpre : schemeEnd sch = pre.length)
    (port : Option (Nat × Str)) (hu : uri = pre ++ (host ++ uriPort port))
    (hh : ':' ∉ host)
    (hp : ∀ n x, port = some (n, x) → n < 65536 ∧ ∀ c, x.head? = some c → isDigit c = false) :
    parseURI resolve uri out =
      if host = [] then (true, ⟨(port.map (·.1)).getD 0, host, out.hostIp,
        schemeOf uri sch⟩)
      else ((hostResolve (resolve host) out.hostIp).1, ⟨(port.map (·.1)).getD 0, host,
        (hostResolve (resolve host) out.hostIp).2,
        schemeOf uri sch⟩) := by
  have hemp : ∀ (h : Str), h.isEmpty = decide (h = []) := by intro h; cases h <;> simp
  cases port with
  | none =>
    have hu' : uri = pre ++ host := by rw [hu]; simp [uriPort]
    have hc : find uri [':'] pre.length = none := by
      rw [hu', find_after]; exact findFrom_char_none _ _ _ hh
    have hd : uri.drop pre.length = host := by rw [hu', List.drop_left]
    unfold parseURI
    simp only [hs, hpre, hc, hd, hemp, decide_eq_true_eq, Option.map_none, Option.getD_none]
  | some q =>
    obtain ⟨n, x⟩ := q
    obtain ⟨hn, hx⟩ := hp n x rfl
    have hu' : uri = pre ++ (host ++ (':' :: (decimal n ++ x))) := hu
    have hc : find uri [':'] pre.length = some (pre.length + host.length) := by
      rw [hu', find_after]; exact findFrom_char_some _ _ _ _ hh
    have hlt : pre.length + host.length < 2 ^ 32 := by
      rw [hu'] at hl; simp only [List.length_append] at hl; omega
    have hd : substr uri pre.length (len32 (some (pre.length + host.length)) pre.length) = host := by
      rw [hu']; exact substr_mid _ _ _ _ rfl hlt
    have hd2 : uri.drop (pre.length + host.length + 1) = decimal n ++ x := by
      have : uri = (pre ++ host ++ [':']) ++ (decimal n ++ x) := by rw [hu']; simp
      rw [this]
      have e : pre.length + host.length + 1 = (pre ++ host ++ [':']).length := by
        simp only [List.length_append, List.length_cons, List.length_nil]
      rw [e, List.drop_left]
    unfold parseURI
    simp only [hs, hpre, hc, hd, hd2, hemp, decide_eq_true_eq, Option.map_some, Option.getD_some,
      extract_decimal_then (some 0) n hn x hx]

/-- **C37 for server addresses.**  `scheme://host:port` (port and scheme optional, anything not
starting with a digit may follow the port) parses to exactly the scheme (`http` when absent), the
host and the port (0 when absent); a non-empty host is resolved, and the answer is that of the
resolver. -/
theorem c37_parse_uri (resolve : Str → Gai) (scheme : Option Str) (host : Str)
    (port : Option (Nat × Str)) (out : UriOut)
    (hl : (uriText scheme host port).length < 2 ^ 32)
    (hs : ∀ s, scheme = some s → ':' ∉ s) (hh : ':' ∉ host)
    (hn : scheme = none → ∀ a b, uriText none host port ≠ a ++ [':', '/', '/'] ++ b)
    (hp : ∀ n x, port = some (n, x) → n < 65536 ∧ ∀ c, x.head? = some c → isDigit c = false) :
    let r := parseURI resolve (uriText scheme host port) out
    r.2.protocol = scheme.getD ['h', 't', 't', 'p'] ∧ r.2.host = host ∧
    r.2.port = (port.map (·.1)).getD 0 ∧
    (r.1, r.2.hostIp) = if host = [] then (true, out.hostIp)
      else hostResolve (resolve host) out.hostIp := by
  cases scheme with
  | none =>
    have hf : find (uriText none host port) schemeSep 0 = none := by
      unfold find
      rw [if_pos (Nat.zero_le _), List.drop_zero]
      exact findFrom_none_of _ (by simp [schemeSep]) _ _ (hn rfl)
    have := parseURI_core resolve [] host out _ none hf hl rfl port rfl hh hp
    rw [this]
    by_cases he : host = [] <;> simp [he, schemeOf]
  | some s =>
    have ht : uriText (some s) host port = (s ++ [':', '/', '/']) ++ (host ++ uriPort port) := rfl
    have hf : find (uriText (some s) host port) schemeSep 0 = some s.length := by
      unfold find
      rw [if_pos (Nat.zero_le _), List.drop_zero, ht, List.append_assoc]
      have := findFrom_scheme (host ++ uriPort port) s 0 (hs s rfl)
      rw [Nat.zero_add] at this
      exact this
    have htake : (uriText (some s) host port).take s.length = s := by
      rw [ht, List.append_assoc, List.take_left]
    have := parseURI_core resolve (s ++ [':', '/', '/']) host out _ (some s.length) hf hl
      (by simp [schemeEnd]) port ht hh hp
    rw [this]
    simp only [schemeOf, htake]
    by_cases he : host = [] <;> simp [he]

/-- **C37 violated: the documented default scheme.**  `://host...` is documented to mean `http`
but parses to the empty scheme, for every host and port. -/
theorem c37_violation_empty_scheme (resolve : Str → Gai) (host : Str) (port : Option (Nat × Str))
    (out : UriOut) (hl : (uriText (some []) host port).length < 2 ^ 32) (hh : ':' ∉ host)
    (hp : ∀ n x, port = some (n, x) → n < 65536 ∧ ∀ c, x.head? = some c → isDigit c = false) :
    (parseURI resolve (uriText (some []) host port) out).2.protocol = [] :=
  (c37_parse_uri resolve (some []) host port out hl (by simp) hh (by simp) hp).1

/-! ### Resolution -/

/-- C-string view of a string: up to the first NUL. -/
def cstr (s : Str) : Str := s.takeWhile (fun c => c.toNat != 0)

/-- **C37: resolution.**  With at least one address, the answer is true and the C-string view of
the address is the text of the last one. -/
theorem c37_resolve_partial (l : List (Bool × Str)) (v6 : Bool) (ip : Str) (old : Str)
    (hip : ∀ c ∈ ip, c.toNat ≠ 0) (hpos : ip ≠ []) :
    let r := hostResolve ⟨0, l ++ [(v6, ip)]⟩ old
    r.1 = true ∧ cstr r.2 = ip := by
  have hz : (Char.ofNat 0).toNat = 0 := by decide
  unfold hostResolve
  simp only [List.foldl_append, List.foldl_cons, List.foldl_nil, ipStr]
  rw [if_neg (by decide)]
  constructor
  · cases ip with
    | nil => exact absurd rfl hpos
    | cons c t => simp
  · unfold cstr
    rw [List.takeWhile_append_of_pos (by intro a ha; simpa using hip a ha)]
    have : (List.replicate ((if v6 = true then 46 else 16) - ip.length) (Char.ofNat 0)).takeWhile
        (fun c => c.toNat != 0) = [] := by
      cases h : ((if v6 = true then 46 else 16) - ip.length) with
      | zero => rfl
      | succ k => rw [List.replicate_succ, List.takeWhile_cons, hz]; simp
    rw [this, List.append_nil]

/-- **C37: failed resolution.**  If the lookup fails, or finds no address for a record that has none,
the answer is false and the record is left as it was. -/
theorem c37_resolve_fail (g : Gai) (old : Str) :
    (g.status = -1 → hostResolve g old = (false, old)) ∧
    (g.status ≠ -1 → g.addrs = [] → old = [] → hostResolve g old = (false, [])) := by
  refine ⟨fun h => by simp [hostResolve, h], fun h h2 h3 => by simp [hostResolve, h, h2, h3]⟩

/-- **C37 violated: the resolved address is not the address text** but the text followed by NUL
characters, for every address (at most 15 characters for IPv4, 45 for IPv6). -/
theorem c37_violation_resolved_nul (l : List (Bool × Str)) (v6 : Bool) (ip : Str) (old : Str)
    (hlen : ip.length < if v6 then 46 else 16) :
    (hostResolve ⟨0, l ++ [(v6, ip)]⟩ old).2 ≠ ip ∧
    (hostResolve ⟨0, l ++ [(v6, ip)]⟩ old).2.getLast? = some (Char.ofNat 0) := by
  have e : (hostResolve ⟨0, l ++ [(v6, ip)]⟩ old).2 = ipStr (v6, ip) := by
    unfold hostResolve
    simp only [List.foldl_append, List.foldl_cons, List.foldl_nil]
    rw [if_neg (by decide)]
  rw [e]
  obtain ⟨k, hk⟩ : ∃ k, (if v6 = true then 46 else 16) - ip.length = k + 1 :=
    ⟨(if v6 = true then 46 else 16) - ip.length - 1, by omega⟩
  unfold ipStr
  simp only [hk]
  refine ⟨?_, ?_⟩
  · intro h
    have := congrArg List.length h
    simp at this
  · rw [List.getLast?_append, List.getLast?_replicate]; simp

/-- **C37 violated: a failed resolution reports success** with the address of an earlier call:
only status -1 (`EAI_BADFLAGS`) is taken for an error. -/
theorem c37_violation_resolve_stale (status : Int) (hs : status ≠ -1) (old : Str) (ho : old ≠ []) :
    hostResolve ⟨status, []⟩ old = (true, old) := by
  unfold hostResolve
  rw [if_neg hs]
  cases old with
  | nil => exact absurd rfl ho
  | cons c t => rfl

/-! ### Inputs on which ParseRemote goes wrong -/

/-- **A record that is used again keeps components of the previous address.** -/
theorem c37_violation_stale (p q : Parts) (okp : p.Ok) (okq : q.Ok) (u w : Str)
    (hp : p.cred = some (u, some w)) (hq : q.cred = none) (n : Nat) (hn : p.port = some n)
    (hm : q.port = none) :
    let r := parseRemote none q.text (parseRemote none p.text Remote.fresh)
    r.host = q.host ∧ r.user = u ∧ r.passwd = w ∧ r.port = some n := by
  obtain ⟨-, h2, h3, -, h5, -, -⟩ := c37_parse_remote p okp Remote.fresh
  obtain ⟨-, g2, g3, g4, g5, -, -⟩ := c37_parse_remote q okq (parseRemote none p.text Remote.fresh)
  simp only [hp, hn, hq, hm] at *
  refine ⟨g4, ?_, ?_, ?_⟩
  · rw [g2]; exact h2
  · rw [g3]; exact h3
  · rw [g5]; exact h5

/-- **A colon in a password** (any password text after the colon is dropped). -/
theorem c37_violation_password_colon (u a b host : Str) (out : Remote)
    (hu : ':' ∉ u ∧ '@' ∉ u) (ha : ':' ∉ a ∧ '@' ∉ a) (hb : ':' ∉ b ∧ '@' ∉ b)
    (hns : ∀ x y, u ++ ':' :: (a ++ ':' :: (b ++ '@' :: host)) ≠ x ++ [':', '/', '/'] ++ y)
    (hl : (u ++ ':' :: (a ++ ':' :: (b ++ '@' :: host))).length < 2 ^ 32) :
    remUser (u ++ ':' :: (a ++ ':' :: (b ++ '@' :: host))) out 0 =
      ({ out with user := u, passwd := a }, u.length + a.length + b.length + 3) ∧
    remScheme (u ++ ':' :: (a ++ ':' :: (b ++ '@' :: host))) out = (out, 0) := by
  have e : u ++ ':' :: (a ++ ':' :: (b ++ '@' :: host)) =
      [] ++ ((u ++ ':' :: (a ++ ':' :: b)) ++ ('@' :: host)) := by simp
  have hat : '@' ∉ u ++ ':' :: (a ++ ':' :: b) := by
    simp only [List.mem_append, List.mem_cons, not_or]
    exact ⟨hu.2, by decide, ha.2, by decide, hb.2⟩
  constructor
  · have hf : find (u ++ ':' :: (a ++ ':' :: (b ++ '@' :: host))) ['@'] ([] : Str).length =
        some (([] : Str).length + (u ++ ':' :: (a ++ ':' :: b)).length) := by
      rw [e, find_after]; exact findFrom_char_some _ _ _ _ hat
    have hsub : substr (u ++ ':' :: (a ++ ':' :: (b ++ '@' :: host))) ([] : Str).length
        (len32 (some (([] : Str).length + (u ++ ':' :: (a ++ ':' :: b)).length)) ([] : Str).length) =
        u ++ ':' :: (a ++ ':' :: b) := by
      rw [e]
      refine substr_mid [] _ _ _ rfl ?_
      rw [e] at hl
      simp only [List.length_append, List.length_nil] at hl ⊢; omega
    have hsp : split (u ++ ':' :: (a ++ ':' :: b)) [':'] false = some [u, a, b] := by
      have := c32_split_join ':' [u, a, b] (by simp) (by
        intro p hp
        simp only [List.mem_cons, List.not_mem_nil, or_false] at hp
        rcases hp with rfl | rfl | rfl
        · exact hu.1
        · exact ha.1
        · exact hb.1)
      simpa [join] using this
    rw [List.length_nil] at hf hsub
    unfold remUser
    rw [hf]
    simp only
    rw [hsub, hsp]
    refine Prod.ext rfl ?_
    simp only [List.length_append, List.length_cons]; omega
  · unfold remScheme find
    rw [if_pos (Nat.zero_le _), List.drop_zero, findFrom_none_of schemeSep (by simp [schemeSep]) _ _ hns]

/-- **A `@` in a query** of an address without credentials: the host is taken for the user and the
end of the query for the host. -/
theorem c37_violation_query_at (host k v w : Str) (hh : ':' ∉ host ∧ '@' ∉ host)
    (hk : ':' ∉ k ∧ '@' ∉ k) (hv : ':' ∉ v ∧ '@' ∉ v)
    (hw : ':' ∉ w ∧ '@' ∉ w ∧ '?' ∉ w)
    (hl : (host ++ '?' :: (k ++ '=' :: (v ++ '@' :: w))).length < 2 ^ 32) :
    let r := parseRemote none (host ++ '?' :: (k ++ '=' :: (v ++ '@' :: w))) Remote.fresh
    r.user = host ++ '?' :: (k ++ '=' :: v) ∧ r.host = w ∧ r.queries = [] := by
  let p : Parts := ⟨none, some (host ++ '?' :: (k ++ '=' :: v), none), w, none, none⟩
  have ht : p.text = host ++ '?' :: (k ++ '=' :: (v ++ '@' :: w)) := by
    show [] ++ ((host ++ '?' :: (k ++ '=' :: v) ++ ['@']) ++ (w ++ [] ++ [])) = _
    simp
  have hc : ':' ∉ p.text := by
    rw [ht]
    simp only [List.mem_append, List.mem_cons, not_or]
    exact ⟨hh.1, by decide, hk.1, by decide, hv.1, by decide, hw.1⟩
  have ok : p.Ok := by
    refine ⟨by simp [p], ?_, ?_, by simp [p], by simp [p], ⟨hw.1, hw.2.2⟩, by simp [p], by simp [p], ?_⟩
    · intro _ a b hab
      apply hc
      have : p.text = p.rest := rfl
      rw [this, hab]; simp
    · intro u pw h
      simp only [p, Option.some.injEq, Prod.mk.injEq] at h
      rw [← h.1]
      simp only [List.mem_append, List.mem_cons, not_or]
      exact ⟨⟨hh.1, by decide, hk.1, by decide, hv.1⟩, ⟨hh.2, by decide, hk.2, by decide, hv.2⟩⟩
    · rw [ht]; exact hl
  obtain ⟨-, h2, -, h4, -, -, h7⟩ := c37_parse_remote p ok Remote.fresh
  rw [ht] at h2 h4 h7
  refine ⟨h2, h4, ?_⟩
  generalize parseRemote none (host ++ '?' :: (k ++ '=' :: (v ++ '@' :: w))) Remote.fresh = r at h7
  cases hq : r.queries with
  | nil => rfl
  | cons kv t =>
    obtain ⟨a, b⟩ := kv
    have := h7 a
    rw [hq] at this
    simp [List.lookup, Remote.fresh, p] at this

/-- **`://` inside a query** of an address without scheme: everything before it becomes the
scheme. -/
theorem c37_violation_query_scheme (host k v w : Str) (hh : ':' ∉ host) (hk : ':' ∉ k) (hv : ':' ∉ v)
    (out : Remote) :
    (remScheme (host ++ '?' :: (k ++ '=' :: (v ++ ([':', '/', '/'] ++ w)))) out).1.scheme =
      host ++ '?' :: (k ++ '=' :: v) := by
  have e : host ++ '?' :: (k ++ '=' :: (v ++ ([':', '/', '/'] ++ w))) =
      (host ++ '?' :: (k ++ '=' :: v)) ++ (schemeSep ++ w) := by simp [schemeSep]
  have hf : find (host ++ '?' :: (k ++ '=' :: (v ++ ([':', '/', '/'] ++ w)))) schemeSep 0 =
      some (host ++ '?' :: (k ++ '=' :: v)).length := by
    unfold find
    rw [if_pos (Nat.zero_le _), List.drop_zero, e, findFrom_scheme, Nat.zero_add]
    simp only [List.mem_append, List.mem_cons, not_or]
    exact ⟨hh, by decide, hk, by decide, hv⟩
  unfold remScheme
  rw [hf]
  simp only
  rw [e, List.take_left]

/-- **An empty port** (`host:`): the port is whatever was on the stack. -/
theorem c37_violation_empty_port (host : Str) (out : Remote) (h : ':' ∉ host ∧ '?' ∉ host)
    (hl : (host ++ [':']).length < 2 ^ 32) : (remHost (host ++ [':']) out 0).port = none := by
  have hf : find (host ++ [':']) ['?'] ([] : Str).length = none := by
    have := find_after [] (host ++ [':']) ['?']
    rw [List.nil_append] at this
    rw [this]
    apply findFrom_char_none
    simp only [List.mem_append, List.mem_cons, not_or, List.not_mem_nil, or_false]
    exact ⟨h.2, by decide⟩
  have hs : substr ([] ++ (host ++ [':'])) ([] : Str).length (len32 none ([] : Str).length) =
      host ++ [':'] := substr_npos [] _ (by simpa using hl)
  rw [List.length_nil] at hf hs
  rw [List.nil_append] at hs
  unfold remHost
  rw [hf, hs, split_two ':' host [] h.1 (by simp), applyHost_two]
  rfl

/-- **A port above 65535** is silently replaced by 65535. -/
theorem c37_violation_port_overflow (n : Nat) (h : 65536 ≤ n) :
    extractU16 none (decimal n) = some 65535 := by
  have hne : decimal n ≠ [] := Nat.toDigits_ne_nil
  have hd : ∀ c ∈ decimal n, isDigit c = true := fun c hc => digit_of_toDigits hc
  have hv := digitsVal_decimal n
  revert hne hd hv
  generalize decimal n = ds
  intro hne hd hv
  cases ds with
  | nil => exact absurd rfl hne
  | cons c t =>
    have hc := hd c (by simp)
    have hsp : isSpace c = false := by
      simp only [isDigit, Bool.and_eq_true, decide_eq_true_eq] at hc
      simp only [isSpace, Bool.or_eq_false_iff, beq_eq_false_iff_ne, Bool.and_eq_false_iff,
        decide_eq_false_iff_not]
      omega
    have htw : (c :: t).takeWhile isDigit = c :: t := List.takeWhile_eq_self_iff.2 hd
    have h1 : ¬ c.toNat = 45 ∧ ¬ c.toNat = 43 := by
      simp only [isDigit, Bool.and_eq_true, decide_eq_true_eq] at hc
      omega
    unfold extractU16
    rw [List.dropWhile_cons, hsp]
    simp only [Bool.false_eq_true, if_false, extractNum, h1.1, h1.2, htw, hv]
    congr 1; omega

/-- **A query value containing `=`** is dropped. -/
theorem c37_violation_query_eq (q : List (Str × Str)) (k v w : Str) (hk : '=' ∉ k) (hv : '=' ∉ v)
    (hw : '=' ∉ w) : addQuery q (k ++ '=' :: (v ++ '=' :: w)) = q := by
  have : split (k ++ '=' :: (v ++ '=' :: w)) ['='] false = some [k, v, w] := by
    have := c32_split_join '=' [k, v, w] (by simp) (by
      intro p hp
      simp only [List.mem_cons, List.not_mem_nil, or_false] at hp
      rcases hp with rfl | rfl | rfl <;> assumption)
    simpa [join] using this
  unfold addQuery
  rw [this]

/-! ### A concrete address satisfies the hypotheses -/

/-- `http://gh:pw@localhost:8020?abc=&name=1234` (the address of the unit test). -/
def sample : Parts :=
  ⟨some "http".toList, some ("gh".toList, some "pw".toList), "localhost".toList, some 8020,
    some [("abc".toList, []), ("name".toList, "1234".toList)]⟩

example : sample.text = "http://gh:pw@localhost:8020?abc=&name=1234".toList := by decide

theorem sample_ok : sample.Ok := by
  refine ⟨?_, by simp [sample], ?_, ?_, by simp [sample], by decide, ?_, ?_, by decide⟩
  · intro s h; simp only [sample, Option.some.injEq] at h; subst h; decide
  · intro u pw h
    simp only [sample, Option.some.injEq, Prod.mk.injEq] at h
    rw [← h.1]; decide
  · intro u pw h
    simp only [sample, Option.some.injEq, Prod.mk.injEq] at h
    rw [← h.2]; decide
  · intro n h; simp only [sample, Option.some.injEq] at h; omega
  · intro kvs h kv hkv
    simp only [sample, Option.some.injEq] at h
    subst h
    simp only [List.mem_cons, List.not_mem_nil, or_false] at hkv
    rcases hkv with rfl | rfl <;> decide

example : (parseRemote none sample.text Remote.fresh).port = some 8020 :=
  (c37_parse_remote_fresh sample sample_ok).2.2.2.2.1

end Ltio.Url
