import Verif.Http.UrlParser

/-
The absolute form of thirdparty/url-parser/url_parser.c: `scheme://[user@]host[:port][/path][?query][#fragment]`.
-/
namespace Ltio.Http.UrlParser

/-! ### Specification -/

/-- A letter. -/
def Alpha (c : Byte) : Prop := (65 ≤ c ∧ c ≤ 90) ∨ (97 ≤ c ∧ c ≤ 122)
/-- A decimal digit. -/
def Digit (c : Byte) : Prop := 48 ≤ c ∧ c ≤ 57
/-- A hexadecimal digit. -/
def HexDigit (c : Byte) : Prop := Digit c ∨ (65 ≤ c ∧ c ≤ 70) ∨ (97 ≤ c ∧ c ≤ 102)
/-- A character of a host name: letters, digits, `.` and `-`. -/
def NameChar (c : Byte) : Prop := Alpha c ∨ Digit c ∨ c = 46 ∨ c = 45
/-- A character of user and password: letters, digits and `- _ . ! ~ * ' ( ) % ; : & = + $ ,`. -/
def UserChar (c : Byte) : Prop :=
  Alpha c ∨ Digit c ∨ c ∈ ([45, 95, 46, 33, 126, 42, 39, 40, 41, 37, 59, 58, 38, 61, 43, 36, 44] : List Byte)
/-- A character of an IPv6 address: hexadecimal digits, `:` and `.`. -/
def V6Char (c : Byte) : Prop := HexDigit c ∨ c = 58 ∨ c = 46
/-- A character of a zone: letters, digits and `% . - _ ~`. -/
def ZoneChar (c : Byte) : Prop := Alpha c ∨ Digit c ∨ c ∈ ([37, 46, 45, 95, 126] : List Byte)

instance (c : Byte) : Decidable (Alpha c) := by unfold Alpha; infer_instance
instance (c : Byte) : Decidable (Digit c) := by unfold Digit; infer_instance
instance (c : Byte) : Decidable (HexDigit c) := by unfold HexDigit; infer_instance
instance (c : Byte) : Decidable (NameChar c) := by unfold NameChar; infer_instance
instance (c : Byte) : Decidable (UserChar c) := by unfold UserChar; infer_instance
instance (c : Byte) : Decidable (V6Char c) := by unfold V6Char; infer_instance
instance (c : Byte) : Decidable (ZoneChar c) := by unfold ZoneChar; infer_instance

/-- A host: a name, or an IPv6 address in brackets, possibly with a zone after `%`. -/
inductive Host
  | name (h : List Byte)
  | v6 (a : List Byte) (zone : Option (List Byte))

def Host.text : Host → List Byte
  | .name h => h
  | .v6 a z => 91 :: (a ++ (after 37 z ++ [93]))

/-- The host as reported: an IPv6 address without brackets. -/
def Host.value : Host → List Byte
  | .name h => h
  | .v6 a z => a ++ after 37 z

def Host.Ok : Host → Prop
  | .name h => h ≠ [] ∧ ∀ c ∈ h, NameChar c
  | .v6 a z => a ≠ [] ∧ (∀ c ∈ a, V6Char c) ∧ ∀ x, z = some x → x ≠ [] ∧ ∀ c ∈ x, ZoneChar c

/-- The number a text of digits stands for. -/
def decimal (p : List Byte) : Nat := p.foldl (fun v c => 10 * v + (c.toNat - 48)) 0

/-- User and `@`, host, `:` and port. -/
structure Authority where
  user : Option (List Byte)
  host : Host
  port : Option (List Byte)

/-- User and `@`, or nothing. -/
def userText : Option (List Byte) → List Byte
  | none => []
  | some x => x ++ [64]

def Authority.text (a : Authority) : List Byte := userText a.user ++ (a.host.text ++ after 58 a.port)

/-- Well formed up to the size of the port. -/
def Authority.Shape (a : Authority) : Prop :=
  (∀ x, a.user = some x → ∀ c ∈ x, UserChar c) ∧ a.host.Ok ∧ ∀ p, a.port = some p → p ≠ [] ∧ ∀ c ∈ p, Digit c

def Authority.Ok (a : Authority) : Prop := a.Shape ∧ ∀ p, a.port = some p → decimal p ≤ 65535

/-- A URL in absolute form. -/
structure AbsUrl where
  scheme : List Byte
  auth : Authority
  target : Target

def AbsUrl.text (u : AbsUrl) : List Byte := u.scheme ++ ([58, 47, 47] ++ (u.auth.text ++ u.target.text))

/-- After the host: nothing, or a path that begins with `/`; a fragment without path and query is not allowed. -/
def Target.RestOk (t : Target) : Prop :=
  (t.path = [] ∨ ∃ r, t.path = 47 :: r ∧ ∀ c ∈ r, PathChar c) ∧ t.TailOk ∧
    (t.path = [] → t.query = none → t.fragment = none)

def AbsUrl.Ok (u : AbsUrl) : Prop := u.scheme ≠ [] ∧ (∀ c ∈ u.scheme, Alpha c) ∧ u.auth.Ok ∧ u.target.RestOk

/-! ### Characters -/

theorem alpha_iff (c : Byte) : isAlpha c = true ↔ Alpha c :=
  byte_cases (P := fun c => isAlpha c = true ↔ Alpha c) (by decide +kernel) c

theorem num_iff (c : Byte) : isNum c = true ↔ Digit c :=
  byte_cases (P := fun c => isNum c = true ↔ Digit c) (by decide +kernel) c

theorem hstep_user (c : Byte) : hstep .userinfo c = (if c = 64 then .hostStart else if UserChar c then .userinfo else .dead) ∧
    hstep .userinfoStart c = hstep .userinfo c :=
  byte_cases (P := fun c => hstep .userinfo c = (if c = 64 then .hostStart else if UserChar c then .userinfo else .dead) ∧
    hstep .userinfoStart c = hstep .userinfo c) (by decide +kernel) c

theorem hstep_hostStart (c : Byte) : hstep .hostStart c = (if c = 91 then .v6Start else if NameChar c then .host else .dead) :=
  byte_cases (P := fun c => hstep .hostStart c = (if c = 91 then .v6Start else if NameChar c then .host else .dead)) (by decide +kernel) c

theorem hstep_host (c : Byte) : hstep .host c = (if NameChar c then .host else if c = 58 then .portStart else .dead) :=
  byte_cases (P := fun c => hstep .host c = (if NameChar c then .host else if c = 58 then .portStart else .dead)) (by decide +kernel) c

theorem hstep_v6Start (c : Byte) : hstep .v6Start c = (if V6Char c then .v6 else .dead) :=
  byte_cases (P := fun c => hstep .v6Start c = (if V6Char c then .v6 else .dead)) (by decide +kernel) c

theorem hstep_v6 (c : Byte) : hstep .v6 c =
    (if c = 93 then .v6End else if V6Char c then .v6 else if c = 37 then .zoneStart else .dead) :=
  byte_cases (P := fun c => hstep .v6 c =
    (if c = 93 then .v6End else if V6Char c then .v6 else if c = 37 then .zoneStart else .dead)) (by decide +kernel) c

theorem hstep_zone (c : Byte) : hstep .zone c = (if c = 93 then .v6End else if ZoneChar c then .zone else .dead) ∧
    hstep .zoneStart c = (if ZoneChar c then .zone else .dead) :=
  byte_cases (P := fun c => hstep .zone c = (if c = 93 then .v6End else if ZoneChar c then .zone else .dead) ∧
    hstep .zoneStart c = (if ZoneChar c then .zone else .dead)) (by decide +kernel) c

theorem hstep_port (c : Byte) : hstep .port c = (if Digit c then .port else .dead) ∧ hstep .portStart c = hstep .port c :=
  byte_cases (P := fun c => hstep .port c = (if Digit c then .port else .dead) ∧ hstep .portStart c = hstep .port c) (by decide +kernel) c

theorem hstep_v6End (c : Byte) : hstep .v6End c = (if c = 58 then .portStart else .dead) := rfl

/-- The states between scheme and path. -/
def srv (s : S) : Bool := s == .serverStart || s == .server || s == .serverWithAt

theorem srv_step (s : S) (hs : srv s = true) (c : Byte) (h47 : c ≠ 47) (h63 : c ≠ 63) (hd : step s c ≠ .dead) :
    (step s c = .serverWithAt ∧ c = 64) ∨ (step s c = .server ∧ c ≠ 64) := by
  have k1 : c ≠ 47 → c ≠ 63 → step .serverStart c ≠ .dead → (step .serverStart c = .serverWithAt ∧ c = 64) ∨ (step .serverStart c = .server ∧ c ≠ 64) :=
    byte_cases (P := fun c => c ≠ 47 → c ≠ 63 → step .serverStart c ≠ .dead →
      (step .serverStart c = .serverWithAt ∧ c = 64) ∨ (step .serverStart c = .server ∧ c ≠ 64)) (by decide +kernel) c
  have k2 : c ≠ 47 → c ≠ 63 → step .server c ≠ .dead → (step .server c = .serverWithAt ∧ c = 64) ∨ (step .server c = .server ∧ c ≠ 64) :=
    byte_cases (P := fun c => c ≠ 47 → c ≠ 63 → step .server c ≠ .dead →
      (step .server c = .serverWithAt ∧ c = 64) ∨ (step .server c = .server ∧ c ≠ 64)) (by decide +kernel) c
  have k3 : c ≠ 47 → c ≠ 63 → step .serverWithAt c ≠ .dead → (step .serverWithAt c = .serverWithAt ∧ c = 64) ∨ (step .serverWithAt c = .server ∧ c ≠ 64) :=
    byte_cases (P := fun c => c ≠ 47 → c ≠ 63 → step .serverWithAt c ≠ .dead →
      (step .serverWithAt c = .serverWithAt ∧ c = 64) ∨ (step .serverWithAt c = .server ∧ c ≠ 64)) (by decide +kernel) c
  cases s <;> simp [srv] at hs
  · exact k1 h47 h63 hd
  · exact k2 h47 h63 hd
  · exact k3 h47 h63 hd

/-- Characters that keep the first loop in the server. -/
def SrvChar (c : Byte) : Prop := UserChar c ∨ c = 91 ∨ c = 93
instance (c : Byte) : Decidable (SrvChar c) := by unfold SrvChar; infer_instance

theorem step_srv (c : Byte) (h : SrvChar c) : step .serverStart c = .server ∧ step .server c = .server ∧
    step .serverWithAt c = .server ∧ c ≠ 64 ∧ c ≠ 47 ∧ c ≠ 63 :=
  byte_cases (P := fun c => SrvChar c → step .serverStart c = .server ∧ step .server c = .server ∧
    step .serverWithAt c = .server ∧ c ≠ 64 ∧ c ≠ 47 ∧ c ≠ 63) (by decide +kernel) c h

theorem name_srv (c : Byte) (h : NameChar c) : SrvChar c :=
  byte_cases (P := fun c => NameChar c → SrvChar c) (by decide +kernel) c h
theorem v6_srv (c : Byte) (h : V6Char c) : SrvChar c :=
  byte_cases (P := fun c => V6Char c → SrvChar c) (by decide +kernel) c h
theorem zone_srv (c : Byte) (h : ZoneChar c) : SrvChar c :=
  byte_cases (P := fun c => ZoneChar c → SrvChar c) (by decide +kernel) c h
theorem digit_srv (c : Byte) (h : Digit c) : SrvChar c :=
  byte_cases (P := fun c => Digit c → SrvChar c) (by decide +kernel) c h

/-! ### The first loop over the server part -/

theorem loop_srv (a rest : List Byte) (s : S) (hs : s = .server ∨ s = .serverWithAt) (hc : ∀ c ∈ a, c ≠ 47 ∧ c ≠ 63)
    (hd : a.foldl step s ≠ .dead) (i : Nat) (fa : Bool) (fd : FD) (o l : Nat) (hl : l < 65536) :
    loop (a ++ rest) i s (some .host) fa (fd.set .host (o, l)) =
      loop rest (i + a.length) (a.foldl step s) (some .host) (fa || a.contains 64) (fd.set .host (o, (l + a.length) % 65536)) := by
  induction a generalizing i s fa l with
  | nil => simp [Nat.mod_eq_of_lt hl]
  | cons c a ih =>
    have hsrv : srv s = true := by rcases hs with rfl | rfl <;> rfl
    have hd1 : step s c ≠ .dead := by
      intro e; rw [List.foldl_cons, e, foldl_dead] at hd; exact hd rfl
    have hcc := hc c (by simp)
    have hst := srv_step s hsrv c hcc.1 hcc.2 hd1
    have hs' : step s c = .server ∨ step s c = .serverWithAt := by
      rcases hst with h | h
      · exact Or.inr h.1
      · exact Or.inl h.1
    have hf : fieldOf (step s c) = some .host := by rcases hs' with h | h <;> rw [h] <;> rfl
    have hb : (step s c == S.serverWithAt) = (c == 64) := by
      rcases hst with h | h
      · rw [h.1, h.2]; rfl
      · rw [h.1, beq_eq_false_iff_ne.mpr h.2]; rfl
    rw [List.cons_append, loop, if_neg hd1, hf]
    simp only [if_true, bump_set]
    rw [ih (step s c) hs' (fun x hx => hc x (by simp [hx])) hd (i + 1) _ ((l + 1) % 65536) (Nat.mod_lt _ (by decide)),
      List.foldl_cons, List.length_cons, Nat.mod_add_mod, show i + 1 + a.length = i + (a.length + 1) by omega,
      show l + 1 + a.length = l + (a.length + 1) by omega, hb, Bool.or_assoc, List.contains_cons,
      show ((64 : Byte) == c) = (c == 64) from BEq.comm]

/-- The whole server part. -/
theorem loop_server (a rest : List Byte) (ha : a ≠ []) (hc : ∀ c ∈ a, c ≠ 47 ∧ c ≠ 63)
    (hd : a.foldl step .serverStart ≠ .dead) (i : Nat) (old : Option UF) (ho : old ≠ some .host) (fa : Bool) (fd : FD) :
    loop (a ++ rest) i .serverStart old fa fd =
      loop rest (i + a.length) (a.foldl step .serverStart) (some .host) (fa || a.contains 64)
        (fd.set .host (i % 65536, a.length % 65536)) := by
  cases a with
  | nil => exact absurd rfl ha
  | cons c a =>
    have hd1 : step .serverStart c ≠ .dead := by
      intro e; rw [List.foldl_cons, e, foldl_dead] at hd; exact hd rfl
    have hcc := hc c (by simp)
    have hst := srv_step .serverStart rfl c hcc.1 hcc.2 hd1
    have hs' : step .serverStart c = .server ∨ step .serverStart c = .serverWithAt := by
      rcases hst with h | h
      · exact Or.inr h.1
      · exact Or.inl h.1
    have hf : fieldOf (step .serverStart c) = some .host := by rcases hs' with h | h <;> rw [h] <;> rfl
    have hb : (step .serverStart c == S.serverWithAt) = (c == 64) := by
      rcases hst with h | h
      · rw [h.1, h.2]; rfl
      · rw [h.1, beq_eq_false_iff_ne.mpr h.2]; rfl
    rw [List.cons_append, loop, if_neg hd1, hf]
    simp only [if_neg ho]
    rw [loop_srv a rest (step .serverStart c) hs' (fun x hx => hc x (by simp [hx])) hd (i + 1) _ fd _ 1 (by decide),
      List.foldl_cons, List.length_cons, show i + 1 + a.length = i + (a.length + 1) by omega,
      show 1 + a.length = a.length + 1 by omega, hb, Bool.or_assoc, List.contains_cons,
      show ((64 : Byte) == c) = (c == 64) from BEq.comm]

theorem foldl_srv (a : List Byte) (ha : a ≠ []) (h : ∀ c ∈ a, SrvChar c) (s : S) (hs : srv s = true) : a.foldl step s = .server := by
  induction a generalizing s with
  | nil => exact absurd rfl ha
  | cons c a ih =>
    have hst := step_srv c (h c (by simp))
    have e : step s c = .server := by
      cases s <;> simp [srv] at hs
      · exact hst.1
      · exact hst.2.1
      · exact hst.2.2.1
    rw [List.foldl_cons, e]
    by_cases hn : a = []
    · rw [hn]; rfl
    · exact ih hn (fun x hx => h x (by simp [hx])) _ rfl

/-! ### The host loop -/

theorem hloop_append (a b : List Byte) (i : Nat) (s : H) (fd : FD) :
    hloop (a ++ b) i s fd = (hloop a i s fd).bind (fun r => hloop b (i + a.length) r.1 r.2) := by
  induction a generalizing i s fd with
  | nil => simp [hloop]
  | cons c a ih =>
    rw [List.cons_append, hloop, hloop]
    by_cases hd : hstep s c = .dead
    · rw [if_pos hd, if_pos hd]; rfl
    · rw [if_neg hd, if_neg hd, ih, List.length_cons, show i + 1 + a.length = i + (a.length + 1) by omega]

theorem hloop_one (c : Byte) (i : Nat) (s s' : H) (fd : FD) (h : hstep s c = s') (hd : s' ≠ .dead) :
    hloop [c] i s fd = some (s', hrecord fd s s' i) := by
  rw [hloop, h, if_neg hd, hloop]

/-- Letters of user, host name, address and port: the part after the first. -/
theorem hloop_run (s : H) (uf : UF) (hu : ∀ fd i, hrecord fd s s i = FD.bump fd uf) (hsd : s ≠ .dead) (cs : List Byte)
    (h : ∀ c ∈ cs, hstep s c = s) (i : Nat) (fd : FD) (o l : Nat) (hl : l < 65536) :
    hloop cs i s (fd.set uf (o, l)) = some (s, fd.set uf (o, (l + cs.length) % 65536)) := by
  induction cs generalizing i l with
  | nil => simp [hloop, Nat.mod_eq_of_lt hl]
  | cons c cs ih =>
    rw [hloop, h c (by simp), if_neg hsd, hu, bump_set, ih (fun x hx => h x (by simp [hx])) _ _ (Nat.mod_lt _ (by decide)),
      List.length_cons, Nat.mod_add_mod, show l + 1 + cs.length = l + (cs.length + 1) by omega]

theorem hloop_enter (s0 s : H) (uf : UF) (hsd : s ≠ .dead) (hu : ∀ fd i, hrecord fd s s i = FD.bump fd uf)
    (c : Byte) (cs : List Byte) (h0 : hstep s0 c = s) (h : ∀ x ∈ cs, hstep s x = s) (i : Nat) (fd : FD)
    (he : hrecord fd s0 s i = fd.set uf (i % 65536, 1)) :
    hloop (c :: cs) i s0 fd = some (s, fd.set uf (i % 65536, (cs.length + 1) % 65536)) := by
  rw [hloop, h0, if_neg hsd, he, hloop_run s uf hu hsd cs h _ _ _ _ (by decide), Nat.add_comm 1]

theorem rec_host (fd : FD) (o : Nat) (i : Nat) (s : H) (hs : s ≠ .host) :
    hrecord (fd.set .host (o, 0)) s .host i = (fd.set .host (o, 0)).set .host (i % 65536, 1) := by
  unfold hrecord
  simp only [hs, ne_eq, not_false_eq_true, if_true, set_self]
  rw [bump_set]; rfl

theorem rec_v6 (fd : FD) (o : Nat) (i : Nat) (s : H) (hs : s ≠ .v6) :
    hrecord (fd.set .host (o, 0)) s .v6 i = (fd.set .host (o, 0)).set .host (i % 65536, 1) := by
  unfold hrecord
  simp only [hs, ne_eq, not_false_eq_true, if_true, set_self]
  rw [bump_set]; rfl

theorem rec_port (fd : FD) (i : Nat) (s : H) (hs : s ≠ .port) : hrecord fd s .port i = fd.set .port (i % 65536, 1) := by
  unfold hrecord
  simp only [hs, ne_eq, not_false_eq_true, if_true]
  rw [bump_set]

theorem rec_user (fd : FD) (i : Nat) (s : H) (hs : s ≠ .userinfo) : hrecord fd s .userinfo i = fd.set .userinfo (i % 65536, 1) := by
  unfold hrecord
  simp only [hs, ne_eq, not_false_eq_true, if_true]
  rw [bump_set]

/-- User and `@`. -/
theorem hloop_user (x : List Byte) (h : ∀ c ∈ x, UserChar c) (i : Nat) (fd : FD) :
    hloop (x ++ [64]) i .userinfoStart fd = some (.hostStart, fd.setOpt .userinfo i x) := by
  have hc : ∀ c, UserChar c → c ≠ 64 := fun c h => byte_cases (P := fun c => UserChar c → c ≠ 64) (by decide +kernel) c h
  cases x with
  | nil => exact hloop_one 64 i _ _ fd rfl (by decide)
  | cons c x =>
    rw [hloop_append, hloop_enter .userinfoStart .userinfo .userinfo (by decide) (fun _ _ => rfl) c x
      (by rw [(hstep_user c).2, (hstep_user c).1, if_neg (hc c (h c (by simp))), if_pos (h c (by simp))])
      (fun y hy => by rw [(hstep_user y).1, if_neg (hc y (h y (by simp [hy]))), if_pos (h y (by simp [hy]))])
      i fd (rec_user _ _ _ (by decide))]
    simp only [Option.bind_some]
    rw [hloop_one 64 _ .userinfo .hostStart _ rfl (by decide)]
    rfl

/-- The host and what follows it. -/
theorem hloop_host (h : Host) (ok : h.Ok) (i : Nat) (fd : FD) (o : Nat) :
    ∃ s, (s = .host ∨ s = .v6End) ∧ ∃ k, hloop h.text i .hostStart (fd.set .host (o, 0)) =
      some (s, fd.set .host ((i + k) % 65536, h.value.length % 65536)) ∧ ∃ x y, h.text = x ++ (h.value ++ y) ∧ x.length = k := by
  cases h with
  | name h =>
    obtain ⟨hne, hc⟩ := ok
    cases h with
    | nil => exact absurd rfl hne
    | cons c cs =>
      have h91 : ∀ c, NameChar c → c ≠ 91 := fun c h => byte_cases (P := fun c => NameChar c → c ≠ 91) (by decide +kernel) c h
      refine ⟨.host, Or.inl rfl, 0, ?_, [], [], by simp [Host.text, Host.value], rfl⟩
      have := hloop_enter .hostStart .host .host (by decide) (fun _ _ => rfl) c cs
        (by rw [hstep_hostStart, if_neg (h91 c (hc c (by simp))), if_pos (hc c (by simp))])
        (fun y hy => by rw [hstep_host, if_pos (hc y (by simp [hy]))]) i (fd.set .host (o, 0)) (rec_host _ _ _ _ (by decide))
      rw [set_set] at this
      exact this
  | v6 a z =>
    obtain ⟨hne, hc, hz⟩ := ok
    cases a with
    | nil => exact absurd rfl hne
    | cons c cs =>
      have h93 : ∀ c, V6Char c → c ≠ 93 := fun c h => byte_cases (P := fun c => V6Char c → c ≠ 93) (by decide +kernel) c h
      refine ⟨.v6End, Or.inr rfl, 1, ?_, [91], [93], by simp [Host.text, Host.value], rfl⟩
      have ha := hloop_enter .v6Start .v6 .host (by decide) (fun _ _ => rfl) c cs
        (by rw [hstep_v6Start, if_pos (hc c (by simp))])
        (fun y hy => by rw [hstep_v6, if_neg (h93 y (hc y (by simp [hy]))), if_pos (hc y (by simp [hy]))]) (i + 1) (fd.set .host (o, 0))
        (rec_v6 _ _ _ _ (by decide))
      rw [set_set] at ha
      have e : (Host.v6 (c :: cs) z).text = [91] ++ ((c :: cs) ++ (after 37 z ++ [93])) := rfl
      rw [e, hloop_append, hloop_one 91 i .hostStart .v6Start _ rfl (by decide)]
      simp only [Option.bind_some, List.length_singleton]
      rw [show hrecord (fd.set .host (o, 0)) .hostStart .v6Start i = fd.set .host (o, 0) from rfl, hloop_append, ha]
      simp only [Option.bind_some]
      cases z with
      | none =>
        rw [show after 37 none ++ [93] = [(93 : Byte)] from rfl, hloop_one 93 _ .v6 .v6End _ rfl (by decide)]
        simp only [Host.value, after, List.append_nil]
        rfl
      | some z =>
        obtain ⟨hzne, hzc⟩ := hz z rfl
        have z93 : ∀ c, ZoneChar c → c ≠ 93 := fun c h => byte_cases (P := fun c => ZoneChar c → c ≠ 93) (by decide +kernel) c h
        cases z with
        | nil => exact absurd rfl hzne
        | cons d ds =>
          rw [show after 37 (some (d :: ds)) ++ [93] = [(37 : Byte)] ++ ([d] ++ (ds ++ [93])) from rfl, hloop_append,
            hloop_one 37 _ .v6 .zoneStart _ (by decide +kernel) (by decide)]
          simp only [Option.bind_some]
          rw [show ∀ (g : FD) (k : Nat), hrecord g .v6 .zoneStart k = g.bump .host from fun _ _ => rfl, bump_set, hloop_append,
            hloop_one d _ .zoneStart .zone _ (by rw [(hstep_zone d).2, if_pos (hzc d (by simp))]) (by decide)]
          simp only [Option.bind_some]
          rw [show ∀ (g : FD) (k : Nat), hrecord g .zoneStart .zone k = g.bump .host from fun _ _ => rfl, bump_set, hloop_append,
            hloop_run .zone .host (fun _ _ => rfl) (by decide) ds
              (fun y hy => by rw [(hstep_zone y).1, if_neg (z93 y (hzc y (by simp [hy]))), if_pos (hzc y (by simp [hy]))])
              _ _ _ _ (Nat.mod_lt _ (by decide))]
          simp only [Option.bind_some]
          rw [hloop_one 93 _ .zone .v6End _ rfl (by decide)]
          rw [show ∀ (g : FD) (k : Nat), hrecord g .zone .v6End k = g from fun _ _ => rfl]
          have el : ((((cs.length + 1) % 65536 + 1) % 65536 + 1) % 65536 + ds.length) % 65536 =
              (Host.v6 (c :: cs) (some (d :: ds))).value.length % 65536 := by
            simp [Host.value, after]
            omega
          rw [el]

/-- `:` and the port, or nothing. -/
theorem hloop_port (s : H) (hs : s = .host ∨ s = .v6End) (p : Option (List Byte)) (ok : ∀ x, p = some x → x ≠ [] ∧ ∀ c ∈ x, Digit c)
    (i : Nat) (fd : FD) :
    ∃ s', hbad s' = false ∧ hloop (after 58 p) i s fd = some (s', fd.setOpt .port (i + 1) (p.getD [])) := by
  cases p with
  | none => exact ⟨s, by rcases hs with rfl | rfl <;> rfl, rfl⟩
  | some x =>
    obtain ⟨hne, hc⟩ := ok x rfl
    cases x with
    | nil => exact absurd rfl hne
    | cons c cs =>
      refine ⟨.port, rfl, ?_⟩
      rw [show after 58 (some (c :: cs)) = [(58 : Byte)] ++ (c :: cs) from rfl, hloop_append,
        hloop_one 58 i s .portStart fd (by rcases hs with rfl | rfl <;> decide +kernel) (by decide)]
      simp only [Option.bind_some]
      rw [hloop_enter .portStart .port .port (by decide) (fun _ _ => rfl) c cs
        (by rw [(hstep_port c).2, (hstep_port c).1, if_pos (hc c (by simp))])
        (fun y hy => by rw [(hstep_port y).1, if_pos (hc y (by simp [hy]))]) _ _
        (by rw [show hrecord fd s .portStart i = fd from rfl]; exact rec_port _ _ _ (by decide))]
      rw [show hrecord fd s .portStart i = fd from rfl]
      rfl

/-! ### The port -/

theorem portValue_eq (p : List Byte) (v : Nat) (hv : v ≤ 65535) :
    portValue p v = if p.foldl (fun v c => 10 * v + (c.toNat - 48)) v ≤ 65535 then some (p.foldl (fun v c => 10 * v + (c.toNat - 48)) v) else none := by
  have mono : ∀ (p : List Byte) (v : Nat), v ≤ p.foldl (fun v c => 10 * v + (c.toNat - 48)) v := by
    intro p
    induction p with
    | nil => intro v; exact Nat.le_refl v
    | cons c p ih => intro v; exact Nat.le_trans (by omega) (ih (10 * v + (c.toNat - 48)))
  induction p generalizing v with
  | nil => simp [portValue, hv]
  | cons c p ih =>
    rw [portValue, List.foldl_cons]
    by_cases h : v * 10 + (c.toNat - 48) > 65535
    · rw [if_pos h, if_neg]
      have := mono p (10 * v + (c.toNat - 48))
      omega
    · rw [if_neg h, show v * 10 + (c.toNat - 48) = 10 * v + (c.toNat - 48) by omega, ih _ (by omega)]

theorem portValue_dec (p : List Byte) : portValue p 0 = if decimal p ≤ 65535 then some (decimal p) else none :=
  portValue_eq p 0 (by omega)

/-! ### The authority -/

theorem setOpt_set_comm (fd : FD) (u v : UF) (h : u ≠ v) (w : Nat × Nat) (i : Nat) (x : List Byte) :
    (fd.set v w).setOpt u i x = (fd.setOpt u i x).set v w := by
  cases x with
  | nil => rfl
  | cons c r =>
    funext y
    unfold FD.setOpt FD.set
    by_cases h1 : y = u
    · subst h1; simp [h]
    · simp [h1]

theorem user_at (a : Authority) (ok : a.Shape) : a.text.contains 64 = a.user.isSome := by
  have nohost : ∀ c ∈ a.host.text ++ after 58 a.port, c ≠ 64 := by
    intro c hc
    rcases List.mem_append.mp hc with h | h
    · have hok := ok.2.1
      cases hh : a.host with
      | name h' =>
        rw [hh] at h hok
        exact (step_srv c (name_srv c (hok.2 c h))).2.2.2.1
      | v6 a' z =>
        rw [hh] at h hok
        simp only [Host.text, List.mem_cons, List.mem_append, List.not_mem_nil, or_false] at h
        rcases h with rfl | h | h | rfl
        · decide
        · exact (step_srv c (v6_srv c (hok.2.1 c h))).2.2.2.1
        · cases z with
          | none => simp [after] at h
          | some z =>
            simp only [after, List.mem_cons] at h
            rcases h with rfl | h
            · decide
            · exact (step_srv c (zone_srv c ((hok.2.2 z rfl).2 c h))).2.2.2.1
        · decide
    · cases hp : a.port with
      | none => rw [hp] at h; simp [after] at h
      | some p =>
        rw [hp] at h
        simp only [after, List.mem_cons] at h
        rcases h with rfl | h
        · decide
        · exact (step_srv c (digit_srv c ((ok.2.2 p hp).2 c h))).2.2.2.1
  unfold Authority.text
  cases hu : a.user with
  | none =>
    simp only [userText, List.nil_append, Option.isSome_none]
    rw [List.contains_eq_mem, decide_eq_false_iff_not]
    intro h
    exact nohost 64 h rfl
  | some x =>
    simp [userText]

theorem auth_foldl (a : Authority) (ok : a.Shape) : a.text ≠ [] ∧ (∀ c ∈ a.text, c ≠ 47 ∧ c ≠ 63) ∧ a.text.foldl step .serverStart = .server := by
  have hst : a.host.text ++ after 58 a.port ≠ [] ∧ ∀ c ∈ a.host.text ++ after 58 a.port, SrvChar c := by
    have hok := ok.2.1
    constructor
    · cases hh : a.host with
      | name h' => rw [hh] at hok; simp [Host.text, hok.1]
      | v6 a' z => simp [Host.text]
    · intro c hc
      rcases List.mem_append.mp hc with h | h
      · cases hh : a.host with
        | name h' =>
          rw [hh] at h hok
          exact name_srv c (hok.2 c h)
        | v6 a' z =>
          rw [hh] at h hok
          simp only [Host.text, List.mem_cons, List.mem_append, List.not_mem_nil, or_false] at h
          rcases h with rfl | h | h | rfl
          · decide
          · exact v6_srv c (hok.2.1 c h)
          · cases z with
            | none => simp [after] at h
            | some z =>
              simp only [after, List.mem_cons] at h
              rcases h with rfl | h
              · decide
              · exact zone_srv c ((hok.2.2 z rfl).2 c h)
          · decide
      · cases hp : a.port with
        | none => rw [hp] at h; simp [after] at h
        | some p =>
          rw [hp] at h
          simp only [after, List.mem_cons] at h
          rcases h with rfl | h
          · decide
          · exact digit_srv c ((ok.2.2 p hp).2 c h)
  unfold Authority.text
  cases hu : a.user with
  | none =>
    simp only [userText, List.nil_append]
    exact ⟨hst.1, fun c hc => ⟨(step_srv c (hst.2 c hc)).2.2.2.2.1, (step_srv c (hst.2 c hc)).2.2.2.2.2⟩, foldl_srv _ hst.1 hst.2 _ rfl⟩
  | some x =>
    have hx := ok.1 x hu
    simp only [userText]
    refine ⟨by simp, ?_, ?_⟩
    · intro c hc
      rw [List.append_assoc] at hc
      rcases List.mem_append.mp hc with h | h
      · have := step_srv c (Or.inl (hx c h))
        exact ⟨this.2.2.2.2.1, this.2.2.2.2.2⟩
      · simp only [List.singleton_append, List.mem_cons] at h
        rcases h with rfl | h
        · decide
        · exact ⟨(step_srv c (hst.2 c h)).2.2.2.2.1, (step_srv c (hst.2 c h)).2.2.2.2.2⟩
    · have e : srv ((x.foldl step .serverStart)) = true ∧ (x.foldl step .serverStart) ≠ .serverWithAt := by
        by_cases hn : x = []
        · subst hn; decide
        · rw [foldl_srv x hn (fun c hc => Or.inl (hx c hc)) _ rfl]; decide
      have e2 : List.foldl step (x.foldl step .serverStart) [64] = .serverWithAt := by
        generalize x.foldl step .serverStart = s at e
        cases s <;> simp [srv] at e <;> decide +kernel
      rw [List.foldl_append, show List.foldl step .serverStart (x ++ [64]) = .serverWithAt by rw [List.foldl_append]; exact e2]
      exact foldl_srv _ hst.1 hst.2 _ rfl

/-- What the host loop does with an authority. -/
theorem hloop_auth (a : Authority) (ok : a.Shape) (i : Nat) (fd : FD) (o : Nat) :
    ∃ s, hbad s = false ∧ ∃ k, hloop a.text i (if a.user.isSome then .userinfoStart else .hostStart) (fd.set .host (o, 0)) =
      some (s, ((fd.setOpt .userinfo i (a.user.getD [])).set .host ((i + k) % 65536, a.host.value.length % 65536)).setOpt .port
        (i + ((userText a.user).length + a.host.text.length) + 1) (a.port.getD [])) ∧
      ∃ x y, a.text = x ++ (a.host.value ++ y) ∧ x.length = k := by
  have hu : hloop (userText a.user) i (if a.user.isSome then .userinfoStart else .hostStart) (fd.set .host (o, 0)) =
      some (.hostStart, (fd.setOpt .userinfo i (a.user.getD [])).set .host (o, 0)) := by
    cases hu : a.user with
    | none => rfl
    | some x =>
      simp only [userText, Option.isSome_some, if_true, Option.getD_some]
      rw [hloop_user x (ok.1 x hu), setOpt_set_comm _ _ _ (by decide)]
  obtain ⟨s1, hs1, k, hk, x, y, hxy, hxk⟩ := hloop_host a.host ok.2.1 (i + (userText a.user).length) (fd.setOpt .userinfo i (a.user.getD [])) o
  obtain ⟨s2, hs2, h2⟩ := hloop_port s1 hs1 a.port ok.2.2 (i + (userText a.user).length + a.host.text.length)
    ((fd.setOpt .userinfo i (a.user.getD [])).set .host ((i + (userText a.user).length + k) % 65536, a.host.value.length % 65536))
  refine ⟨s2, hs2, (userText a.user).length + k, ?_, userText a.user ++ x, y ++ after 58 a.port, ?_, by simp [hxk]⟩
  · unfold Authority.text
    rw [hloop_append, hu]
    simp only [Option.bind_some]
    rw [hloop_append, hk]
    simp only [Option.bind_some]
    rw [h2, show i + ((userText a.user).length + k) = i + (userText a.user).length + k by omega,
      show i + ((userText a.user).length + a.host.text.length) = i + (userText a.user).length + a.host.text.length by omega]
  · unfold Authority.text
    rw [hxy]
    simp

/-! ### The rest after the host -/

theorem loop_rest (s : S) (hs : srv s = true) (t : Target) (ht : t.RestOk) (i : Nat) (old : Option UF)
    (h1 : old ≠ some .path) (h2 : old ≠ some .query) (h3 : old ≠ some .fragment) (fa : Bool) (fd : FD) :
    ∃ o, loop t.text i s old fa fd = some (fa,
      ((fd.setOpt .path i t.path).setOpt .query (i + t.path.length + 1) (t.query.getD [])).setOpt .fragment o (t.frag.getD [])) ∧
      o + (t.frag.getD []).length = i + t.text.length := by
  obtain ⟨hp, htail, hnf⟩ := ht
  have s63 : step s 63 = .queryStart := by cases s <;> simp [srv] at hs <;> decide +kernel
  have s47 : step s 47 = .path := by cases s <;> simp [srv] at hs <;> decide +kernel
  rcases hp with hp | ⟨r, hp, hr⟩
  · obtain ⟨o, e1, e2⟩ := loop_tail s t htail (fun _ => s63) (fun hq hf => absurd (hnf hp hq) hf) i old h2 h3 fa fd
    refine ⟨o, ?_, ?_⟩
    · unfold Target.text
      rw [hp, List.nil_append, e1]
      rfl
    · unfold Target.text
      rw [hp, List.nil_append, e2]
  · obtain ⟨o, e1, e2⟩ := loop_tail .path t htail (fun _ => by decide +kernel) (fun _ _ => by decide +kernel) (i + (r.length + 1)) (some .path)
      (by decide) (by decide) fa (fd.set .path (i % 65536, (r.length + 1) % 65536))
    refine ⟨o, ?_, ?_⟩
    · unfold Target.text
      rw [hp, loop_enter s .path .path rfl (by decide) 47 r _ s47 (fun x hx => by rw [step_path, if_pos (hr x hx)]) i old h1 fa fd, e1]
      rfl
    · unfold Target.text
      rw [e2, hp]
      simp
      omega

/-- What the first loop does with scheme, server part and rest. -/
theorem loop_abs (sch a : List Byte) (t : Target) (hs : sch ≠ []) (hsc : ∀ c ∈ sch, Alpha c) (ha : a ≠ [])
    (hc : ∀ c ∈ a, c ≠ 47 ∧ c ≠ 63) (hd : a.foldl step .serverStart ≠ .dead) (ht : t.RestOk) :
    ∃ o, loop (sch ++ ([58, 47, 47] ++ (a ++ t.text))) 0 .start none false (fun _ => none) = some (a.contains 64,
      (((((FD.set (fun _ => none) .schema (0, sch.length % 65536)).set .host ((sch.length + 3) % 65536, a.length % 65536)).setOpt
        .path (sch.length + 3 + a.length) t.path).setOpt .query (sch.length + 3 + a.length + t.path.length + 1) (t.query.getD [])).setOpt
        .fragment o (t.frag.getD []))) ∧
      o + (t.frag.getD []).length = sch.length + 3 + a.length + t.text.length := by
  cases sch with
  | nil => exact absurd rfl hs
  | cons c r =>
    have st : ∀ c, Alpha c → step .start c = .schema ∧ step .schema c = .schema := fun c h =>
      byte_cases (P := fun c => Alpha c → step .start c = .schema ∧ step .schema c = .schema) (by decide +kernel) c h
    have hsrv : srv (a.foldl step .serverStart) = true := by
      clear ht
      have gen : ∀ (a : List Byte) (s : S), srv s = true → (∀ c ∈ a, c ≠ 47 ∧ c ≠ 63) → a.foldl step s ≠ .dead → srv (a.foldl step s) = true := by
        intro a
        induction a with
        | nil => intro s h _ _; exact h
        | cons c a ih =>
          intro s h hc hd
          have hd1 : step s c ≠ .dead := by
            intro e; rw [List.foldl_cons, e, foldl_dead] at hd; exact hd rfl
          refine ih _ ?_ (fun x hx => hc x (by simp [hx])) hd
          rcases srv_step s h c (hc c (by simp)).1 (hc c (by simp)).2 hd1 with e | e <;> rw [e.1] <;> rfl
      exact gen a _ rfl hc hd
    rw [loop_enter .start .schema .schema rfl (by decide) c r _ (st c (hsc c (by simp))).1
      (fun x hx => (st x (hsc x (by simp [hx]))).2) 0 none (by decide) false (fun _ => none)]
    rw [show [58, 47, 47] ++ (a ++ t.text) = (58 : Byte) :: 47 :: 47 :: (a ++ t.text) from rfl,
      loop_delim .schema .schemaSlash 58 (by decide +kernel) (by decide) rfl,
      loop_delim .schemaSlash .schemaSlashSlash 47 (by decide +kernel) (by decide) rfl,
      loop_delim .schemaSlashSlash .serverStart 47 (by decide +kernel) (by decide) rfl,
      loop_server a t.text ha hc hd _ _ (by decide)]
    obtain ⟨o, e1, e2⟩ := loop_rest (a.foldl step .serverStart) hsrv t ht (0 + (r.length + 1) + 1 + 1 + 1 + a.length) (some .host)
      (by decide) (by decide) (by decide) (false || a.contains 64)
      ((FD.set (fun _ => none) .schema (0 % 65536, (r.length + 1) % 65536)).set .host ((0 + (r.length + 1) + 1 + 1 + 1) % 65536, a.length % 65536))
    refine ⟨o, ?_, ?_⟩
    · rw [e1, List.length_cons, show 0 + (r.length + 1) + 1 + 1 + 1 = r.length + 1 + 3 by omega, Bool.false_or]
    · rw [e2, List.length_cons]
      omega

/-! ### The inverse of the host loop -/

theorem hfoldl_dead (cs : List Byte) : cs.foldl hstep .dead = .dead := by
  induction cs with
  | nil => rfl
  | cons c cs ih => exact ih

theorem hloop_state (cs : List Byte) (i : Nat) (s : H) (hs : s ≠ .dead) (fd : FD) (r : H × FD) (h : hloop cs i s fd = some r) :
    cs.foldl hstep s = r.1 ∧ r.1 ≠ .dead := by
  induction cs generalizing i s fd with
  | nil => rw [hloop] at h; cases h; exact ⟨rfl, hs⟩
  | cons c cs ih =>
    rw [hloop] at h
    by_cases hd : hstep s c = .dead
    · rw [if_pos hd] at h; cases h
    · rw [if_neg hd] at h
      exact ih _ _ hd _ h

/-- A state in which the host may end. -/
def hgood (s : H) : Prop := s ≠ .dead ∧ hbad s = false

theorem hgood_dead (cs : List Byte) (h : hgood (cs.foldl hstep .dead)) : False := by
  rw [hfoldl_dead] at h
  exact h.1 rfl

theorem hinv_port (cs : List Byte) (h : hgood (cs.foldl hstep .port)) : ∀ c ∈ cs, Digit c := by
  induction cs with
  | nil => simp
  | cons c cs ih =>
    rw [List.foldl_cons, (hstep_port c).1] at h
    by_cases hc : Digit c
    · rw [if_pos hc] at h
      intro x hx
      rcases List.mem_cons.mp hx with rfl | hx
      · exact hc
      · exact ih h x hx
    · rw [if_neg hc] at h
      exact (hgood_dead cs h).elim

theorem hinv_portStart (cs : List Byte) (h : hgood (cs.foldl hstep .portStart)) : cs ≠ [] ∧ ∀ c ∈ cs, Digit c := by
  cases cs with
  | nil => exact absurd h.2 (by decide)
  | cons c cs =>
    rw [List.foldl_cons, (hstep_port c).2, (hstep_port c).1] at h
    by_cases hc : Digit c
    · rw [if_pos hc] at h
      refine ⟨by simp, ?_⟩
      intro x hx
      rcases List.mem_cons.mp hx with rfl | hx
      · exact hc
      · exact hinv_port cs h x hx
    · rw [if_neg hc] at h
      exact (hgood_dead cs h).elim

/-- `:` and port, or nothing. -/
def PortOk (p : Option (List Byte)) : Prop := ∀ x, p = some x → x ≠ [] ∧ ∀ c ∈ x, Digit c

theorem hinv_colon (c : Byte) (cs : List Byte) (h : hgood (cs.foldl hstep (if c = 58 then .portStart else .dead))) :
    ∃ p, c :: cs = after 58 p ∧ PortOk p := by
  by_cases hc : c = 58
  · rw [if_pos hc] at h
    subst hc
    refine ⟨some cs, rfl, ?_⟩
    intro x hx
    cases hx
    exact hinv_portStart cs h
  · rw [if_neg hc] at h
    exact (hgood_dead cs h).elim

theorem hinv_v6End (cs : List Byte) (h : hgood (cs.foldl hstep .v6End)) : ∃ p, cs = after 58 p ∧ PortOk p := by
  cases cs with
  | nil => exact ⟨none, rfl, by simp [PortOk]⟩
  | cons c cs => exact hinv_colon c cs h

theorem hinv_host (cs : List Byte) (h : hgood (cs.foldl hstep .host)) :
    ∃ n p, cs = n ++ after 58 p ∧ (∀ c ∈ n, NameChar c) ∧ PortOk p := by
  induction cs with
  | nil => exact ⟨[], none, rfl, by simp, by simp [PortOk]⟩
  | cons c cs ih =>
    rw [List.foldl_cons, hstep_host] at h
    by_cases hc : NameChar c
    · rw [if_pos hc] at h
      obtain ⟨n, p, h1, h2, h3⟩ := ih h
      refine ⟨c :: n, p, by rw [h1]; rfl, ?_, h3⟩
      intro x hx
      rcases List.mem_cons.mp hx with rfl | hx
      · exact hc
      · exact h2 x hx
    · rw [if_neg hc] at h
      obtain ⟨p, h1, h2⟩ := hinv_colon c cs h
      exact ⟨[], p, h1, by simp, h2⟩

theorem hinv_zone (cs : List Byte) (h : hgood (cs.foldl hstep .zone)) :
    ∃ z p, cs = z ++ ([93] ++ after 58 p) ∧ (∀ c ∈ z, ZoneChar c) ∧ PortOk p := by
  induction cs with
  | nil => exact absurd h.2 (by decide)
  | cons c cs ih =>
    rw [List.foldl_cons, (hstep_zone c).1] at h
    by_cases h93 : c = 93
    · rw [if_pos h93] at h
      obtain ⟨p, h1, h2⟩ := hinv_v6End cs h
      exact ⟨[], p, by rw [h1, h93]; rfl, by simp, h2⟩
    · rw [if_neg h93] at h
      by_cases hc : ZoneChar c
      · rw [if_pos hc] at h
        obtain ⟨z, p, h1, h2, h3⟩ := ih h
        refine ⟨c :: z, p, by rw [h1]; rfl, ?_, h3⟩
        intro x hx
        rcases List.mem_cons.mp hx with rfl | hx
        · exact hc
        · exact h2 x hx
      · rw [if_neg hc] at h
        exact (hgood_dead cs h).elim

theorem hinv_v6 (cs : List Byte) (h : hgood (cs.foldl hstep .v6)) :
    ∃ a z p, cs = a ++ (after 37 z ++ ([93] ++ after 58 p)) ∧ (∀ c ∈ a, V6Char c) ∧
      (∀ x, z = some x → x ≠ [] ∧ ∀ c ∈ x, ZoneChar c) ∧ PortOk p := by
  induction cs with
  | nil => exact absurd h.2 (by decide)
  | cons c cs ih =>
    rw [List.foldl_cons, hstep_v6] at h
    by_cases h93 : c = 93
    · rw [if_pos h93] at h
      obtain ⟨p, h1, h2⟩ := hinv_v6End cs h
      exact ⟨[], none, p, by rw [h1, h93]; rfl, by simp, by simp, h2⟩
    · rw [if_neg h93] at h
      by_cases hc : V6Char c
      · rw [if_pos hc] at h
        obtain ⟨a, z, p, h1, h2, h3, h4⟩ := ih h
        refine ⟨c :: a, z, p, by rw [h1]; rfl, ?_, h3, h4⟩
        intro x hx
        rcases List.mem_cons.mp hx with rfl | hx
        · exact hc
        · exact h2 x hx
      · rw [if_neg hc] at h
        by_cases h37 : c = 37
        · rw [if_pos h37] at h
          cases cs with
          | nil => exact absurd h.2 (by decide)
          | cons d ds =>
            rw [List.foldl_cons, (hstep_zone d).2] at h
            by_cases hd : ZoneChar d
            · rw [if_pos hd] at h
              obtain ⟨z, p, h1, h2, h3⟩ := hinv_zone ds h
              refine ⟨[], some (d :: z), p, by rw [h1, h37]; rfl, by simp, ?_, h3⟩
              intro x hx
              cases hx
              refine ⟨by simp, ?_⟩
              intro x hx
              rcases List.mem_cons.mp hx with rfl | hx
              · exact hd
              · exact h2 x hx
            · rw [if_neg hd] at h
              exact (hgood_dead ds h).elim
        · rw [if_neg h37] at h
          exact (hgood_dead cs h).elim

theorem hinv_hostStart (cs : List Byte) (h : hgood (cs.foldl hstep .hostStart)) :
    ∃ ho p, cs = Host.text ho ++ after 58 p ∧ Host.Ok ho ∧ PortOk p := by
  cases cs with
  | nil => exact absurd h.2 (by decide)
  | cons c cs =>
    rw [List.foldl_cons, hstep_hostStart] at h
    by_cases h91 : c = 91
    · rw [if_pos h91] at h
      cases cs with
      | nil => exact absurd h.2 (by decide)
      | cons d ds =>
        rw [List.foldl_cons, hstep_v6Start] at h
        by_cases hd : V6Char d
        · rw [if_pos hd] at h
          obtain ⟨a, z, p, h1, h2, h3, h4⟩ := hinv_v6 ds h
          refine ⟨.v6 (d :: a) z, p, by rw [h1, h91]; simp [Host.text], ⟨by simp, ?_, h3⟩, h4⟩
          intro x hx
          rcases List.mem_cons.mp hx with rfl | hx
          · exact hd
          · exact h2 x hx
        · rw [if_neg hd] at h
          exact (hgood_dead ds h).elim
    · rw [if_neg h91] at h
      by_cases hc : NameChar c
      · rw [if_pos hc] at h
        obtain ⟨n, p, h1, h2, h3⟩ := hinv_host cs h
        refine ⟨.name (c :: n), p, by rw [h1]; rfl, ⟨by simp, ?_⟩, h3⟩
        intro x hx
        rcases List.mem_cons.mp hx with rfl | hx
        · exact hc
        · exact h2 x hx
      · rw [if_neg hc] at h
        exact (hgood_dead cs h).elim

theorem hinv_user (cs : List Byte) (s : H) (hs : s = .userinfo ∨ s = .userinfoStart) (h : hgood (cs.foldl hstep s)) :
    ∃ u rest, cs = u ++ ([64] ++ rest) ∧ (∀ c ∈ u, UserChar c) ∧ hgood (rest.foldl hstep .hostStart) := by
  induction cs generalizing s with
  | nil => rcases hs with rfl | rfl <;> exact absurd h.2 (by decide)
  | cons c cs ih =>
    have e : hstep s c = (if c = 64 then .hostStart else if UserChar c then .userinfo else .dead) := by
      rcases hs with rfl | rfl
      · exact (hstep_user c).1
      · rw [(hstep_user c).2]; exact (hstep_user c).1
    rw [List.foldl_cons, e] at h
    by_cases h64 : c = 64
    · rw [if_pos h64] at h
      exact ⟨[], cs, by rw [h64]; rfl, by simp, h⟩
    · rw [if_neg h64] at h
      by_cases hc : UserChar c
      · rw [if_pos hc] at h
        obtain ⟨u, rest, h1, h2, h3⟩ := ih _ (Or.inl rfl) h
        refine ⟨c :: u, rest, by rw [h1]; rfl, ?_, h3⟩
        intro x hx
        rcases List.mem_cons.mp hx with rfl | hx
        · exact hc
        · exact h2 x hx
      · rw [if_neg hc] at h
        exact (hgood_dead cs h).elim

/-- What the host loop accepts is an authority. -/
theorem hinv_auth (cs : List Byte) (fa : Bool) (h : hgood (cs.foldl hstep (if fa then .userinfoStart else .hostStart))) :
    ∃ a : Authority, a.Shape ∧ cs = a.text ∧ a.user.isSome = fa := by
  cases fa with
  | false =>
    obtain ⟨ho, p, h1, h2, h3⟩ := hinv_hostStart cs h
    exact ⟨⟨none, ho, p⟩, ⟨by simp, h2, h3⟩, h1, rfl⟩
  | true =>
    obtain ⟨u, rest, h1, h2, h3⟩ := hinv_user cs .userinfoStart (Or.inr rfl) h
    obtain ⟨ho, p, h4, h5, h6⟩ := hinv_hostStart rest h3
    refine ⟨⟨some u, ho, p⟩, ⟨?_, h5, h6⟩, ?_, rfl⟩
    · intro x hx; cases hx; exact h2
    · rw [h1, h4]; simp [Authority.text, userText]

/-! ### The inverse of the first loop -/

theorem srv_only (cs : List Byte) (s : S) (hs : srv s = true) (h : cs.foldl step s ≠ .dead) :
    ∃ a t, cs = a ++ Target.text t ∧ (∀ c ∈ a, c ≠ 47 ∧ c ≠ 63) ∧ a.foldl step s ≠ .dead ∧ t.RestOk := by
  have hsd : s ≠ .dead := by intro e; rw [e] at hs; cases hs
  induction cs generalizing s with
  | nil =>
    exact ⟨[], ⟨[], none, none⟩, rfl, by simp, hsd, Or.inl rfl, ⟨by simp, by simp⟩, fun _ _ => rfl⟩
  | cons c cs ih =>
    rw [List.foldl_cons] at h
    by_cases h47 : c = 47
    · subst h47
      rw [show step s 47 = .path by cases s <;> simp [srv] at hs <;> decide +kernel] at h
      obtain ⟨p, q, f, h1, h2, h3, h4⟩ := path_only cs h
      refine ⟨[], ⟨47 :: p, q, f⟩, by rw [h1]; rfl, by simp, hsd, Or.inr ⟨p, rfl, h2⟩, ⟨h3, h4⟩, fun hn => by simp at hn⟩
    · by_cases h63 : c = 63
      · subst h63
        rw [show step s 63 = .queryStart by cases s <;> simp [srv] at hs <;> decide +kernel] at h
        obtain ⟨q, f, h1, h2, h3⟩ := query_only cs .queryStart (Or.inr rfl) h
        refine ⟨[], ⟨[], some q, f⟩, by rw [h1]; rfl, by simp, hsd, Or.inl rfl, ⟨?_, h3⟩, fun _ hn => by simp at hn⟩
        intro x hx; cases hx; exact h2
      · have hd1 : step s c ≠ .dead := by
          intro e; rw [e, foldl_dead] at h; exact h rfl
        have hs' : srv (step s c) = true := by
          rcases srv_step s hs c h47 h63 hd1 with e | e <;> rw [e.1] <;> rfl
        obtain ⟨a, t, h1, h2, h3, h4⟩ := ih (step s c) hs' h hd1
        refine ⟨c :: a, t, by rw [h1]; rfl, ?_, h3, h4⟩
        intro x hx
        rcases List.mem_cons.mp hx with rfl | hx
        · exact ⟨h47, h63⟩
        · exact h2 x hx

/-- What the first loop accepts after a letter. -/
theorem schema_only (cs : List Byte) (h : cs.foldl step .schema ≠ .dead) :
    ∃ sch rest, cs = sch ++ rest ∧ (∀ c ∈ sch, Alpha c) ∧
      (rest = [] ∨ rest = [58] ∨ rest = [58, 47] ∨ ∃ r, rest = [58, 47, 47] ++ r ∧ r.foldl step .serverStart ≠ .dead) := by
  induction cs with
  | nil => exact ⟨[], [], rfl, by simp, Or.inl rfl⟩
  | cons c cs ih =>
    rw [List.foldl_cons] at h
    have e : step .schema c = if Alpha c then .schema else if c = 58 then .schemaSlash else .dead :=
      byte_cases (P := fun c => step .schema c = if Alpha c then .schema else if c = 58 then .schemaSlash else .dead) (by decide +kernel) c
    have e1 : ∀ c, step .schemaSlash c = if c = 47 then .schemaSlashSlash else .dead := fun c =>
      byte_cases (P := fun c => step .schemaSlash c = if c = 47 then .schemaSlashSlash else .dead) (by decide +kernel) c
    have e2 : ∀ c, step .schemaSlashSlash c = if c = 47 then .serverStart else .dead := fun c =>
      byte_cases (P := fun c => step .schemaSlashSlash c = if c = 47 then .serverStart else .dead) (by decide +kernel) c
    rw [e] at h
    by_cases hc : Alpha c
    · rw [if_pos hc] at h
      obtain ⟨sch, rest, h1, h2, h3⟩ := ih h
      refine ⟨c :: sch, rest, by rw [h1]; rfl, ?_, h3⟩
      intro x hx
      rcases List.mem_cons.mp hx with rfl | hx
      · exact hc
      · exact h2 x hx
    · rw [if_neg hc] at h
      by_cases h58 : c = 58
      · rw [if_pos h58] at h
        subst h58
        refine ⟨[], 58 :: cs, rfl, by simp, ?_⟩
        cases cs with
        | nil => exact Or.inr (Or.inl rfl)
        | cons d ds =>
          rw [List.foldl_cons, e1] at h
          by_cases hd : d = 47
          · rw [if_pos hd] at h
            subst hd
            cases ds with
            | nil => exact Or.inr (Or.inr (Or.inl rfl))
            | cons g gs =>
              rw [List.foldl_cons, e2] at h
              by_cases hg : g = 47
              · rw [if_pos hg] at h
                subst hg
                exact Or.inr (Or.inr (Or.inr ⟨gs, rfl, h⟩))
              · rw [if_neg hg, foldl_dead] at h
                exact absurd rfl h
          · rw [if_neg hd, foldl_dead] at h
            exact absurd rfl h
      · rw [if_neg h58, foldl_dead] at h
        exact absurd rfl h

/-! ### Absolute URLs -/

/-- Fields of the first loop for scheme, server part and rest. -/
def absFd (sch a : List Byte) (t : Target) (o : Nat) : FD :=
  (((((FD.set (fun _ => none) .schema (0, sch.length % 65536)).set .host ((sch.length + 3) % 65536, a.length % 65536)).setOpt
        .path (sch.length + 3 + a.length) t.path).setOpt .query (sch.length + 3 + a.length + t.path.length + 1) (t.query.getD [])).setOpt
        .fragment o (t.frag.getD []))

theorem absFd_old (sch a : List Byte) (t : Target) (o : Nat) (v : UF) (h1 : v ≠ .path) (h2 : v ≠ .query) (h3 : v ≠ .fragment) :
    absFd sch a t o v = (FD.set (fun _ => none) .schema (0, sch.length % 65536)).set .host ((sch.length + 3) % 65536, a.length % 65536) v := by
  unfold absFd
  rw [setOpt_other _ _ _ _ _ h3, setOpt_other _ _ _ _ _ h2, setOpt_other _ _ _ _ _ h1]

/-- The parser on scheme, server part and rest: all depends on the host loop and the port. -/
theorem parse_abs (sch a : List Byte) (t : Target) (hs : sch ≠ []) (hsc : ∀ c ∈ sch, Alpha c) (ha : a ≠ [])
    (hc : ∀ c ∈ a, c ≠ 47 ∧ c ≠ 63) (hd : a.foldl step .serverStart ≠ .dead) (ht : t.RestOk)
    (hlen : (sch ++ ([58, 47, 47] ++ (a ++ t.text))).length < 65536) :
    ∃ o, o + (t.frag.getD []).length = sch.length + 3 + a.length + t.text.length ∧
      parseUrl (sch ++ ([58, 47, 47] ++ (a ++ t.text))) false =
        (match hloop a (sch.length + 3) (if a.contains 64 then .userinfoStart else .hostStart)
            ((absFd sch a t o).set .host (sch.length + 3, 0)) with
          | none => none
          | some (s, fd) => if hbad s then none else match fd .port with
            | none => some ⟨fd, 0⟩
            | some v => match portValue (slice (sch ++ ([58, 47, 47] ++ (a ++ t.text))) v) 0 with
              | none => none
              | some p => some ⟨fd, p⟩) := by
  obtain ⟨o, h1, h2⟩ := loop_abs sch a t hs hsc ha hc hd ht
  refine ⟨o, h2, ?_⟩
  have hne : sch ++ ([58, 47, 47] ++ (a ++ t.text)) ≠ [] := by simp
  have hl : sch.length + 3 + a.length + t.text.length < 65536 := by
    simp only [List.length_append, List.length_cons, List.length_nil] at hlen
    omega
  have hho : absFd sch a t o .host = some (sch.length + 3, a.length) := by
    rw [absFd_old _ _ _ _ _ (by decide) (by decide) (by decide), set_self, Nat.mod_eq_of_lt (by omega), Nat.mod_eq_of_lt (by omega)]
  have hsl : slice (sch ++ ([58, 47, 47] ++ (a ++ t.text))) (sch.length + 3, a.length) = a := by
    have := slice_mid (sch ++ [58, 47, 47]) a t.text
    simpa using this
  have h1' : loop (sch ++ ([58, 47, 47] ++ (a ++ t.text))) 0 .start none false (fun _ => none) = some (a.contains 64, absFd sch a t o) := h1
  unfold parseUrl
  rw [if_neg hne]
  simp only [Bool.false_eq_true, if_false, h1']
  rw [if_neg (by rw [hho]; simp), if_pos (by rw [hho]; rfl)]
  unfold parseHost
  rw [hho]
  simp only [hsl, false_and, if_false]
  cases hloop a (sch.length + 3) (if a.contains 64 then .userinfoStart else .hostStart) ((absFd sch a t o).set .host (sch.length + 3, 0)) with
  | none => rfl
  | some r =>
    obtain ⟨s, fd⟩ := r
    simp only []
    cases hbad s <;> rfl

/-- **C120 (absolute form)**: for every well-formed URL `scheme://[user@]host[:port][/path][?query][#fragment]`
below 64 KiB the parser succeeds and reports exactly these parts (an IPv6 host without its brackets, with its
zone; empty user, query and fragment as absent; fragments without leading `#`) and the value of the port. -/
theorem c120_absolute (u : AbsUrl) (ok : u.Ok) (hlen : u.text.length < 65536) :
    ∃ r, parseUrl u.text false = some r ∧ r.read u.text .schema = some u.scheme ∧
      r.read u.text .userinfo = nonEmpty u.auth.user ∧ r.read u.text .host = some u.auth.host.value ∧
      r.read u.text .port = u.auth.port ∧ r.port = (u.auth.port.map decimal).getD 0 ∧
      r.read u.text .path = nonEmpty (some u.target.path) ∧ r.read u.text .query = nonEmpty u.target.query ∧
      r.read u.text .fragment = nonEmpty u.target.frag := by
  obtain ⟨hs, hsc, ⟨hsh, hpv⟩, ht⟩ := ok
  obtain ⟨ha, hc, hd⟩ := auth_foldl u.auth hsh
  obtain ⟨o, ho, hp⟩ := parse_abs u.scheme u.auth.text u.target hs hsc ha hc (by rw [hd]; decide) ht hlen
  obtain ⟨s, hsb, k, hk, x, y, hxy, hxk⟩ := hloop_auth u.auth hsh (u.scheme.length + 3)
    (absFd u.scheme u.auth.text u.target o) (u.scheme.length + 3)
  rw [user_at u.auth hsh, hk] at hp
  simp only [hsb, Bool.false_eq_true, if_false] at hp
  have hl : u.scheme.length + 3 + u.auth.text.length + u.target.text.length < 65536 := by
    have hlen' := hlen
    unfold AbsUrl.text at hlen'
    simp only [List.length_append, List.length_cons, List.length_nil] at hlen'
    omega
  have htx : u.scheme ++ ([58, 47, 47] ++ (u.auth.text ++ u.target.text)) = u.text := rfl
  rw [htx] at hp
  have hatl : u.auth.text.length = (userText u.auth.user).length + (u.auth.host.text.length + (after 58 u.auth.port).length) := by
    unfold Authority.text; simp
  have hvl : x.length + (u.auth.host.value.length + y.length) = u.auth.text.length := by rw [hxy]; simp
  have htl : u.target.text.length = u.target.path.length + (after 63 u.target.query ++ after 35 u.target.fragment).length := by
    unfold Target.text; simp
  -- the final fields
  generalize hfd : ((((absFd u.scheme u.auth.text u.target o).setOpt .userinfo (u.scheme.length + 3) (u.auth.user.getD [])).set .host
      ((u.scheme.length + 3 + k) % 65536, u.auth.host.value.length % 65536)).setOpt .port
        (u.scheme.length + 3 + ((userText u.auth.user).length + u.auth.host.text.length) + 1) (u.auth.port.getD [])) = fd at hp
  have hport : fd .port = if u.auth.port.getD [] = [] then none else
      some (u.scheme.length + 3 + ((userText u.auth.user).length + u.auth.host.text.length) + 1, (u.auth.port.getD []).length) := by
    have hpl : (u.auth.port.getD []).length ≤ (after 58 u.auth.port).length := by
      cases u.auth.port <;> simp [after]
    by_cases he : u.auth.port.getD [] = []
    · rw [← hfd, setOpt_self _ _ _ _ (by
        rw [set_other _ _ _ _ (by decide), setOpt_other _ _ _ _ _ (by decide), absFd_old _ _ _ _ _ (by decide) (by decide) (by decide)]
        rfl), if_pos he, if_pos he]
    · rw [← hfd, setOpt_self _ _ _ _ (by
        rw [set_other _ _ _ _ (by decide), setOpt_other _ _ _ _ _ (by decide), absFd_old _ _ _ _ _ (by decide) (by decide) (by decide)]
        rfl), if_neg he, if_neg he, Nat.mod_eq_of_lt, Nat.mod_eq_of_lt (by omega)]
      have : (after 58 u.auth.port).length = (u.auth.port.getD []).length + 1 := by
        cases hpp : u.auth.port with
        | none => rw [hpp] at he; exact absurd rfl he
        | some p => simp [after]
      omega
  have hportS : ∀ p, u.auth.port = some p → fd .port = some (u.scheme.length + 3 + ((userText u.auth.user).length + u.auth.host.text.length) + 1, p.length) ∧
      slice u.text (u.scheme.length + 3 + ((userText u.auth.user).length + u.auth.host.text.length) + 1, p.length) = p := by
    intro p hpp
    have hpne := (hsh.2.2 p hpp).1
    rw [hport, hpp]
    refine ⟨by simp [hpne], ?_⟩
    have := slice_mid (u.scheme ++ ([58, 47, 47] ++ (userText u.auth.user ++ (u.auth.host.text ++ [58])))) p u.target.text
    have e2 : u.scheme ++ ([58, 47, 47] ++ (userText u.auth.user ++ (u.auth.host.text ++ [58]))) ++ (p ++ u.target.text) = u.text := by
      unfold AbsUrl.text Authority.text
      rw [hpp, show after 58 (some p) = 58 :: p from rfl]
      simp
    have el : (u.scheme ++ ([58, 47, 47] ++ (userText u.auth.user ++ (u.auth.host.text ++ [58])))).length =
      u.scheme.length + 3 + ((userText u.auth.user).length + u.auth.host.text.length) + 1 := by simp; omega
    rw [e2, el] at this
    exact this
  have hother : ∀ v : UF, v ≠ .port → v ≠ .host → v ≠ .userinfo → fd v = absFd u.scheme u.auth.text u.target o v := by
    intro v h1 h2 h3
    rw [← hfd, setOpt_other _ _ _ _ _ h1, set_other _ _ _ _ h2, setOpt_other _ _ _ _ _ h3]
  have hread : parseUrl u.text false = some ⟨fd, (u.auth.port.map decimal).getD 0⟩ := by
    rw [hp]
    cases hpp : u.auth.port with
    | none =>
      rw [hport, hpp]
      rfl
    | some p =>
      rw [(hportS p hpp).1]
      simp only [(hportS p hpp).2]
      rw [portValue_dec p, if_pos (hpv p hpp)]
      rfl
  refine ⟨⟨fd, (u.auth.port.map decimal).getD 0⟩, hread, ?_, ?_, ?_, ?_, rfl, ?_⟩
  · show (fd .schema).map _ = _
    rw [hother _ (by decide) (by decide) (by decide), absFd_old _ _ _ _ _ (by decide) (by decide) (by decide),
      set_other _ _ _ _ (by decide), set_self, Nat.mod_eq_of_lt (by omega)]
    have := slice_mid [] u.scheme ([58, 47, 47] ++ (u.auth.text ++ u.target.text))
    simpa [AbsUrl.text] using this
  · show (fd .userinfo).map _ = _
    rw [← hfd, setOpt_other _ _ _ _ _ (by decide), set_other _ _ _ _ (by decide),
      setOpt_self _ _ _ _ (by rw [absFd_old _ _ _ _ _ (by decide) (by decide) (by decide)]; rfl), nonEmpty_getD]
    by_cases he : u.auth.user.getD [] = []
    · rw [if_pos he, if_pos he]; rfl
    · rw [if_neg he, if_neg he]
      cases hu : u.auth.user with
      | none => rw [hu] at he; exact absurd rfl he
      | some w =>
        have hw : (userText u.auth.user).length = w.length + 1 := by rw [hu]; simp [userText]
        simp only [Option.getD_some, Option.map_some, Option.some.injEq]
        rw [Nat.mod_eq_of_lt (by omega), Nat.mod_eq_of_lt (by omega)]
        have := slice_mid (u.scheme ++ [58, 47, 47]) w ([64] ++ ((u.auth.host.text ++ after 58 u.auth.port) ++ u.target.text))
        have e2 : u.scheme ++ [58, 47, 47] ++ (w ++ ([64] ++ ((u.auth.host.text ++ after 58 u.auth.port) ++ u.target.text))) = u.text := by
          unfold AbsUrl.text Authority.text
          rw [hu]
          simp [userText]
        rw [e2] at this
        simpa using this
  · show (fd .host).map _ = _
    rw [← hfd, setOpt_other _ _ _ _ _ (by decide), set_self]
    simp only [Option.map_some, Option.some.injEq]
    rw [Nat.mod_eq_of_lt (by omega), Nat.mod_eq_of_lt (by omega)]
    have := slice_mid (u.scheme ++ ([58, 47, 47] ++ x)) u.auth.host.value (y ++ u.target.text)
    have e2 : u.scheme ++ ([58, 47, 47] ++ x) ++ (u.auth.host.value ++ (y ++ u.target.text)) = u.text := by
      unfold AbsUrl.text
      rw [hxy]
      simp
    rw [e2] at this
    have el : (u.scheme ++ ([58, 47, 47] ++ x)).length = u.scheme.length + 3 + k := by
      simp [hxk]; omega
    rw [el] at this
    exact this
  · show (fd .port).map _ = _
    cases hpp : u.auth.port with
    | none => rw [hport, hpp]; rfl
    | some p =>
      rw [(hportS p hpp).1]
      simp only [Option.map_some, (hportS p hpp).2]
  · have hpref : (u.scheme ++ ([58, 47, 47] ++ (u.auth.text ++ u.target.path))).length =
        u.scheme.length + 3 + u.auth.text.length + u.target.path.length := by simp; omega
    have hut : u.scheme ++ ([58, 47, 47] ++ (u.auth.text ++ u.target.path)) ++ (after 63 u.target.query ++ after 35 u.target.fragment) = u.text := by
      unfold AbsUrl.text Target.text
      simp
    have rt := read_tail (u.scheme ++ ([58, 47, 47] ++ (u.auth.text ++ u.target.path))) u.target
      ((((FD.set (fun _ => none) .schema (0, u.scheme.length % 65536)).set .host ((u.scheme.length + 3) % 65536, u.auth.text.length % 65536)).setOpt
        .path (u.scheme.length + 3 + u.auth.text.length) u.target.path))
      (by rw [setOpt_other _ _ _ _ _ (by decide)]; rfl) (by rw [setOpt_other _ _ _ _ _ (by decide)]; rfl) o
      (by rw [hpref]; omega) (by rw [hut]; exact hlen)
    rw [hut, hpref] at rt
    refine ⟨?_, ?_, ?_⟩
    · show (fd .path).map _ = _
      rw [hother _ (by decide) (by decide) (by decide)]
      unfold absFd
      rw [setOpt_other _ _ _ _ _ (by decide), setOpt_other _ _ _ _ _ (by decide), setOpt_self _ _ _ _ rfl, nonEmpty_getD]
      simp only [Option.getD_some]
      by_cases he : u.target.path = []
      · rw [if_pos he, if_pos he]; rfl
      · rw [if_neg he, if_neg he]
        simp only [Option.map_some, Option.some.injEq]
        have hpos := List.length_pos_iff.mpr he
        rw [Nat.mod_eq_of_lt (by omega), Nat.mod_eq_of_lt (by omega)]
        have := slice_mid (u.scheme ++ ([58, 47, 47] ++ u.auth.text)) u.target.path (after 63 u.target.query ++ after 35 u.target.fragment)
        have e2 : u.scheme ++ ([58, 47, 47] ++ u.auth.text) ++ (u.target.path ++ (after 63 u.target.query ++ after 35 u.target.fragment)) = u.text := by
          unfold AbsUrl.text Target.text
          simp
        rw [e2] at this
        have el : (u.scheme ++ ([58, 47, 47] ++ u.auth.text)).length = u.scheme.length + 3 + u.auth.text.length := by
          simp; omega
        rw [el] at this
        exact this
    · show (fd .query).map _ = _
      rw [hother _ (by decide) (by decide) (by decide)]
      exact rt.1
    · show (fd .fragment).map _ = _
      rw [hother _ (by decide) (by decide) (by decide)]
      exact rt.2

/-- Scheme without server part is refused. -/
theorem no_host (sch rest : List Byte) (hs : sch ≠ []) (hsc : ∀ c ∈ sch, Alpha c)
    (hr : rest = [] ∨ rest = [58] ∨ rest = [58, 47] ∨ ∃ t : Target, rest = [58, 47, 47] ++ t.text ∧ t.RestOk) :
    parseUrl (sch ++ rest) false = none := by
  have st : ∀ c, Alpha c → step .start c = .schema ∧ step .schema c = .schema := fun c h =>
    byte_cases (P := fun c => Alpha c → step .start c = .schema ∧ step .schema c = .schema) (by decide +kernel) c h
  have key : ∃ fa fd, loop (sch ++ rest) 0 .start none false (fun _ => none) = some (fa, fd) ∧ (fd .schema).isSome ∧ fd .host = none := by
    cases sch with
    | nil => exact absurd rfl hs
    | cons c r =>
      rw [loop_enter .start .schema .schema rfl (by decide) c r _ (st c (hsc c (by simp))).1
        (fun x hx => (st x (hsc x (by simp [hx]))).2) 0 none (by decide) false (fun _ => none)]
      rcases hr with rfl | rfl | rfl | ⟨t, rfl, ht⟩
      · exact ⟨false, _, rfl, rfl, rfl⟩
      · rw [loop_delim .schema .schemaSlash 58 (by decide +kernel) (by decide) rfl]
        exact ⟨false, _, rfl, rfl, rfl⟩
      · rw [loop_delim .schema .schemaSlash 58 (by decide +kernel) (by decide) rfl,
          loop_delim .schemaSlash .schemaSlashSlash 47 (by decide +kernel) (by decide) rfl]
        exact ⟨false, _, rfl, rfl, rfl⟩
      · rw [show [58, 47, 47] ++ t.text = (58 : Byte) :: 47 :: 47 :: t.text from rfl,
          loop_delim .schema .schemaSlash 58 (by decide +kernel) (by decide) rfl,
          loop_delim .schemaSlash .schemaSlashSlash 47 (by decide +kernel) (by decide) rfl,
          loop_delim .schemaSlashSlash .serverStart 47 (by decide +kernel) (by decide) rfl]
        obtain ⟨o, e1, _⟩ := loop_rest .serverStart rfl t ht (0 + (r.length + 1) + 1 + 1 + 1) (some .schema)
          (by decide) (by decide) (by decide) false (FD.set (fun _ => none) .schema (0 % 65536, (r.length + 1) % 65536))
        rw [e1]
        refine ⟨false, _, rfl, ?_, ?_⟩
        · rw [setOpt_other _ _ _ _ _ (by decide), setOpt_other _ _ _ _ _ (by decide), setOpt_other _ _ _ _ _ (by decide), set_self]
          rfl
        · rw [setOpt_other _ _ _ _ _ (by decide), setOpt_other _ _ _ _ _ (by decide), setOpt_other _ _ _ _ _ (by decide)]
          rfl
  obtain ⟨fa, fd, h1, h2, h3⟩ := key
  unfold parseUrl
  rw [if_neg (by simp [hs])]
  simp only [Bool.false_eq_true, if_false, h1]
  rw [if_pos ⟨h2, by rw [h3]; rfl⟩]

/-- **C120 (exactly the URLs)**: for every buffer below 64 KiB, the parser succeeds exactly if the buffer is a
request target in origin form or a URL in absolute form, well formed in all its parts and with a port of at
most 65535. -/
theorem c120_iff (buf : List Byte) (hlen : buf.length < 65536) :
    (parseUrl buf false).isSome ↔
      (∃ t : Target, PathOk t.path ∧ t.TailOk ∧ buf = t.text) ∨ (∃ u : AbsUrl, u.Ok ∧ buf = u.text) := by
  constructor
  · intro h
    cases hb : buf with
    | nil => rw [hb] at h; simp [parseUrl] at h
    | cons c cs =>
      by_cases ha : isAlpha c = true
      · right
        have hA : Alpha c := (alpha_iff c).mp ha
        have st : step .start c = .schema :=
          byte_cases (P := fun c => Alpha c → step .start c = .schema) (by decide +kernel) c hA
        have hl : (loop (c :: cs) 0 .start none false (fun _ => none)).isSome := by
          rw [hb] at h
          unfold parseUrl at h
          rw [if_neg (by simp)] at h
          simp only [Bool.false_eq_true, if_false] at h
          cases hl : loop (c :: cs) 0 .start none false (fun _ => none) with
          | none => rw [hl] at h; simp at h
          | some x => rfl
        rw [loop_isSome _ _ _ (by decide), List.foldl_cons, st] at hl
        obtain ⟨sch, rest, h1, h2, h3⟩ := schema_only cs hl
        have hsne : c :: sch ≠ [] := by simp
        have hsc : ∀ x ∈ c :: sch, Alpha x := by
          intro x hx
          rcases List.mem_cons.mp hx with rfl | hx
          · exact hA
          · exact h2 x hx
        have hbuf : buf = (c :: sch) ++ rest := by rw [hb, h1]; rfl
        have bad : ∀ P : Prop, (rest = [] ∨ rest = [58] ∨ rest = [58, 47] ∨ ∃ t : Target, rest = [58, 47, 47] ++ t.text ∧ t.RestOk) → P := by
          intro P hr
          rw [hbuf, no_host _ _ hsne hsc hr] at h
          exact absurd h (by simp)
        rcases h3 with h3 | h3 | h3 | ⟨r, h3, h4⟩
        · exact bad _ (Or.inl h3)
        · exact bad _ (Or.inr (Or.inl h3))
        · exact bad _ (Or.inr (Or.inr (Or.inl h3)))
        · obtain ⟨a, t, e1, e2, e3, e4⟩ := srv_only r .serverStart rfl h4
          by_cases hane : a = []
          · exact bad _ (Or.inr (Or.inr (Or.inr ⟨t, by rw [h3, e1, hane]; rfl, e4⟩)))
          · have hbuf' : buf = (c :: sch) ++ ([58, 47, 47] ++ (a ++ t.text)) := by rw [hbuf, h3, e1]
            rw [hbuf'] at h hlen
            obtain ⟨o, ho, hp⟩ := parse_abs (c :: sch) a t hsne hsc hane e2 e3 e4 hlen
            rw [hp] at h
            cases hh : hloop a ((c :: sch).length + 3) (if a.contains 64 then .userinfoStart else .hostStart)
                ((absFd (c :: sch) a t o).set .host ((c :: sch).length + 3, 0)) with
            | none => rw [hh] at h; simp at h
            | some w =>
              obtain ⟨s, fd⟩ := w
              have hst := hloop_state _ _ _ (by cases a.contains 64 <;> decide) _ _ hh
              have hgb : hbad s = false := by
                cases hsb : hbad s with
                | false => rfl
                | true => rw [hh] at h; simp [hsb] at h
              have hg : hgood (a.foldl hstep (if a.contains 64 then .userinfoStart else .hostStart)) := by
                rw [hst.1]; exact ⟨hst.2, hgb⟩
              obtain ⟨au, hsh, hat, hus⟩ := hinv_auth a _ hg
              refine ⟨⟨c :: sch, au, t⟩, ⟨hsne, hsc, ⟨hsh, ?_⟩, e4⟩, ?_⟩
              · -- the port
                intro p hpp
                obtain ⟨s2, _, k, hk, _⟩ := hloop_auth au hsh ((c :: sch).length + 3) (absFd (c :: sch) a t o) ((c :: sch).length + 3)
                rw [hus, ← hat, hh] at hk
                simp only [Option.some.injEq, Prod.mk.injEq] at hk
                rw [hh] at h
                simp only [hgb, Bool.false_eq_true, if_false] at h
                have hpne := (hsh.2.2 p hpp).1
                have hll : a.length = (userText au.user).length + (au.host.text.length + (p.length + 1)) := by
                  rw [hat]
                  unfold Authority.text
                  rw [hpp, show after 58 (some p) = 58 :: p from rfl]
                  simp
                have hl2 : (c :: sch).length + 3 + a.length < 65536 := by
                  simp only [List.length_append, List.length_cons, List.length_nil] at hlen ⊢
                  omega
                have hfp : fd .port = some ((c :: sch).length + 3 + ((userText au.user).length + au.host.text.length) + 1, p.length) := by
                  rw [hk.2, hpp, Option.getD_some, setOpt_self _ _ _ _ (by
                    rw [set_other _ _ _ _ (by decide), setOpt_other _ _ _ _ _ (by decide), absFd_old _ _ _ _ _ (by decide) (by decide) (by decide)]
                    rfl), if_neg hpne, Nat.mod_eq_of_lt (by omega), Nat.mod_eq_of_lt (by omega)]
                have hsl : slice ((c :: sch) ++ ([58, 47, 47] ++ (a ++ t.text)))
                    ((c :: sch).length + 3 + ((userText au.user).length + au.host.text.length) + 1, p.length) = p := by
                  have := slice_mid ((c :: sch) ++ ([58, 47, 47] ++ (userText au.user ++ (au.host.text ++ [58])))) p t.text
                  have el : ((c :: sch) ++ ([58, 47, 47] ++ (userText au.user ++ (au.host.text ++ [58])))).length =
                    (c :: sch).length + 3 + ((userText au.user).length + au.host.text.length) + 1 := by simp; omega
                  have e5 : (c :: sch) ++ ([58, 47, 47] ++ (userText au.user ++ (au.host.text ++ [58]))) ++ (p ++ t.text) =
                      (c :: sch) ++ ([58, 47, 47] ++ (a ++ t.text)) := by
                    rw [hat]
                    unfold Authority.text
                    rw [hpp, show after 58 (some p) = 58 :: p from rfl]
                    simp
                  rw [el, e5] at this
                  exact this
                rw [hfp] at h
                simp only [hsl] at h
                rw [portValue_dec] at h
                by_cases hle : decimal p ≤ 65535
                · exact hle
                · rw [if_neg hle] at h; simp at h
              · rw [← hb, hbuf', hat]
                rfl
      · left
        rw [hb] at h
        exact (c120_origin_iff (c :: cs) (by
          intro d hd
          cases hd
          simpa using ha)).mp h
  · rintro (⟨t, h1, h2, rfl⟩ | ⟨u, h1, rfl⟩)
    · obtain ⟨r, hr, _⟩ := c120_origin t h1 h2 hlen
      rw [hr]; rfl
    · obtain ⟨r, hr, _⟩ := c120_absolute u h1 hlen
      rw [hr]; rfl

/-! ### All offsets and lengths stay inside the buffer -/

/-- Every field ends at or before `n`. -/
def FD.Within (fd : FD) (n : Nat) : Prop := ∀ uf v, fd uf = some v → v.1 + v.2 ≤ n

theorem within_bump (fd : FD) (uf : UF) (n : Nat) (h : fd.Within n) : (fd.bump uf).Within (n + 1) := by
  intro x v hx
  unfold FD.bump at hx
  by_cases hu : x = uf
  · rw [if_pos hu] at hx
    cases hf : fd x with
    | none => rw [hf] at hx; cases hx
    | some w =>
      rw [hf] at hx
      cases hx
      have := h x w hf
      have := Nat.mod_le (w.2 + 1) 65536
      simp only []
      omega
  · rw [if_neg hu] at hx
    have := h x v hx
    omega

theorem within_set (fd : FD) (uf : UF) (n : Nat) (w : Nat × Nat) (h : fd.Within n) (hw : w.1 + w.2 ≤ n) : (fd.set uf w).Within n := by
  intro x v hx
  unfold FD.set at hx
  by_cases hu : x = uf
  · rw [if_pos hu] at hx; cases hx; exact hw
  · rw [if_neg hu] at hx; exact h x v hx

theorem within_mono (fd : FD) (n m : Nat) (h : fd.Within n) (hm : n ≤ m) : fd.Within m :=
  fun x v hx => Nat.le_trans (h x v hx) hm

theorem loop_within (cs : List Byte) (i : Nat) (s : S) (old : Option UF) (fa : Bool) (fd : FD) (h : fd.Within i) (r : Bool × FD)
    (hr : loop cs i s old fa fd = some r) : r.2.Within (i + cs.length) := by
  induction cs generalizing i s old fa fd with
  | nil => rw [loop] at hr; cases hr; exact h
  | cons c cs ih =>
    rw [loop] at hr
    by_cases hd : step s c = .dead
    · rw [if_pos hd] at hr; cases hr
    · rw [if_neg hd] at hr
      rw [List.length_cons, show i + (cs.length + 1) = i + 1 + cs.length by omega]
      split at hr
      · exact ih _ _ _ _ _ (within_mono _ _ _ h (by omega)) hr
      · refine ih _ _ _ _ _ ?_ hr
        split
        · exact within_bump _ _ _ h
        · refine within_set _ _ _ _ (within_mono _ _ _ h (by omega)) ?_
          have := Nat.mod_le i 65536
          simp only []
          omega

/-- States before the first character of the host. -/
def beforeHost (s : H) : Bool := s == .userinfoStart || s == .userinfo || s == .hostStart || s == .v6Start

/-- The fields of the host loop at index `i` of a server part that ends at or before `n`. -/
def HInv (fd : FD) (s : H) (i n : Nat) : Prop :=
  (∀ v, fd .host = some v → v.1 + v.2 ≤ i ∧ (beforeHost s = true → v.2 = 0)) ∧ (∀ v, fd .port = some v → v.1 + v.2 ≤ i) ∧
    (∀ v, fd .userinfo = some v → v.1 + v.2 ≤ i) ∧ fd.Within n

theorem hstep_from (c : Byte) (s : H) (h : hstep s c = .host ∧ s ≠ .host ∨ hstep s c = .v6 ∧ s ≠ .v6) : beforeHost s = true := by
  cases s <;> simp only [hstep] at h <;> first | rfl | (exfalso; revert h; split_ifs <;> simp) | simp at h

theorem hstep_before (c : Byte) (s : H) (h : beforeHost (hstep s c) = true) : beforeHost s = true := by
  cases s <;> first | rfl | (exfalso; revert h; simp only [hstep]; split_ifs <;> simp [beforeHost]) | (simp [hstep, beforeHost] at h)

theorem hrec_inv (fd : FD) (s s' : H) (i n : Nat) (hn : i + 1 ≤ n) (h : HInv fd s i n)
    (h1 : s' = .host ∧ s ≠ .host ∨ s' = .v6 ∧ s ≠ .v6 → beforeHost s = true)
    (h2 : beforeHost s' = true → beforeHost s = true) : HInv (hrecord fd s s' i) s' (i + 1) n := by
  have hi := Nat.mod_le i 65536
  obtain ⟨a1, a2, a3, a4⟩ := h
  have keep : HInv fd s' (i + 1) n := by
    refine ⟨fun v hv => ⟨?_, fun hb => (a1 v hv).2 (h2 hb)⟩, fun v hv => ?_, fun v hv => ?_, a4⟩
    · have := (a1 v hv).1; omega
    · have := a2 v hv; omega
    · have := a3 v hv; omega
  -- bumping one of the three
  have bump : ∀ (g : FD) (uf : UF), (uf = .host → beforeHost s' = false) → uf = .host ∨ uf = .port ∨ uf = .userinfo →
      (∀ v, g .host = some v → v.1 + v.2 ≤ i ∧ (beforeHost s' = true → v.2 = 0)) → (∀ v, g .port = some v → v.1 + v.2 ≤ i) →
      (∀ v, g .userinfo = some v → v.1 + v.2 ≤ i) → g.Within n → HInv (g.bump uf) s' (i + 1) n := by
    intro g uf hbf huf g1 g2 g3 g4
    have key : ∀ x v, (g.bump uf) x = some v → ∃ w, g x = some w ∧ v.1 = w.1 ∧ v.2 ≤ w.2 + 1 ∧ (x ≠ uf → v = w) := by
      intro x v hx
      unfold FD.bump at hx
      by_cases hu : x = uf
      · rw [if_pos hu] at hx
        cases hg : g x with
        | none => rw [hg] at hx; cases hx
        | some w =>
          rw [hg] at hx
          cases hx
          exact ⟨w, rfl, rfl, Nat.mod_le _ _, fun hh => absurd hu hh⟩
      · rw [if_neg hu] at hx
        exact ⟨v, hx, rfl, by omega, fun _ => rfl⟩
    refine ⟨fun v hv => ?_, fun v hv => ?_, fun v hv => ?_, fun x v hv => ?_⟩
    · obtain ⟨w, hw, e1, e2, e3⟩ := key _ v hv
      have := g1 w hw
      refine ⟨by omega, fun hb => ?_⟩
      by_cases hu : uf = .host
      · rw [hbf hu] at hb; cases hb
      · rw [e3 (fun e => hu e.symm)]; exact this.2 hb
    · obtain ⟨w, hw, e1, e2, _⟩ := key _ v hv
      have := g2 w hw; omega
    · obtain ⟨w, hw, e1, e2, _⟩ := key _ v hv
      have := g3 w hw; omega
    · obtain ⟨w, hw, e1, e2, e3⟩ := key _ v hv
      by_cases hu : x = uf
      · rcases huf with h | h | h
        · rw [hu, h] at hw; have := (g1 w hw).1; omega
        · rw [hu, h] at hw; have := g2 w hw; omega
        · rw [hu, h] at hw; have := g3 w hw; omega
      · rw [e3 hu]; exact g4 x w hw
  have hw : ∀ v, fd .host = some v → v.1 + v.2 ≤ i := fun v hv => (a1 v hv).1
  have setHost : beforeHost s = true → beforeHost s' = false →
      HInv ((fd.set .host (i % 65536, ((fd .host).map Prod.snd).getD 0)).bump .host) s' (i + 1) n := by
    intro hb hb'
    have h0 : ((fd .host).map Prod.snd).getD 0 = 0 := by
      cases hf : fd .host with
      | none => rfl
      | some v => exact (a1 v hf).2 hb
    rw [h0]
    refine bump _ _ (fun _ => hb') (Or.inl rfl) ?_ ?_ ?_ ?_
    · intro v hv; rw [set_self] at hv; cases hv; exact ⟨by simp only []; omega, fun _ => rfl⟩
    · intro v hv; rw [set_other _ _ _ _ (by decide)] at hv; exact a2 v hv
    · intro v hv; rw [set_other _ _ _ _ (by decide)] at hv; exact a3 v hv
    · exact within_set _ _ _ _ a4 (by simp only []; omega)
  have bumpHost : beforeHost s' = false → HInv (fd.bump .host) s' (i + 1) n := fun hb' =>
    bump _ _ (fun _ => hb') (Or.inl rfl) (fun v hv => ⟨hw v hv, fun hb => by rw [hb'] at hb; cases hb⟩) a2 a3 a4
  cases s' with
  | host =>
    by_cases hs : s = .host
    · simp only [hrecord, hs, ne_eq, not_true_eq_false, if_false]; exact bumpHost rfl
    · simp only [hrecord, hs, ne_eq, not_false_eq_true, if_true]; exact setHost (h1 (Or.inl ⟨rfl, hs⟩)) rfl
  | v6 =>
    by_cases hs : s = .v6
    · simp only [hrecord, hs, ne_eq, not_true_eq_false, if_false]; exact bumpHost rfl
    · simp only [hrecord, hs, ne_eq, not_false_eq_true, if_true]; exact setHost (h1 (Or.inr ⟨rfl, hs⟩)) rfl
  | zoneStart => exact bumpHost rfl
  | zone => exact bumpHost rfl
  | port =>
    by_cases hs : s = .port
    · simp only [hrecord, hs, ne_eq, not_true_eq_false, if_false]
      exact bump _ _ (fun e => by cases e) (Or.inr (Or.inl rfl)) (fun v hv => ⟨hw v hv, fun hb => by cases hb⟩) a2 a3 a4
    · simp only [hrecord, hs, ne_eq, not_false_eq_true, if_true]
      refine bump _ _ (fun e => by cases e) (Or.inr (Or.inl rfl)) ?_ ?_ ?_ ?_
      · intro v hv; rw [set_other _ _ _ _ (by decide)] at hv; exact ⟨hw v hv, fun hb => by cases hb⟩
      · intro v hv; rw [set_self] at hv; cases hv; simp only []; omega
      · intro v hv; rw [set_other _ _ _ _ (by decide)] at hv; exact a3 v hv
      · exact within_set _ _ _ _ a4 (by simp only []; omega)
  | userinfo =>
    have hb0 : ∀ v, fd .host = some v → v.2 = 0 := fun v hv => (a1 v hv).2 (h2 rfl)
    by_cases hs : s = .userinfo
    · simp only [hrecord, hs, ne_eq, not_true_eq_false, if_false]
      exact bump _ _ (fun e => by cases e) (Or.inr (Or.inr rfl)) (fun v hv => ⟨hw v hv, fun _ => hb0 v hv⟩) a2 a3 a4
    · simp only [hrecord, hs, ne_eq, not_false_eq_true, if_true]
      refine bump _ _ (fun e => by cases e) (Or.inr (Or.inr rfl)) ?_ ?_ ?_ ?_
      · intro v hv; rw [set_other _ _ _ _ (by decide)] at hv; exact ⟨hw v hv, fun _ => hb0 v hv⟩
      · intro v hv; rw [set_other _ _ _ _ (by decide)] at hv; exact a2 v hv
      · intro v hv; rw [set_self] at hv; cases hv; simp only []; omega
      · exact within_set _ _ _ _ a4 (by simp only []; omega)
  | dead => exact keep
  | userinfoStart => exact keep
  | hostStart => exact keep
  | v6Start => exact keep
  | v6End => exact keep
  | portStart => exact keep

theorem hloop_inv (cs : List Byte) (i n : Nat) (s : H) (fd : FD) (hn : i + cs.length ≤ n) (h : HInv fd s i n) (r : H × FD)
    (hr : hloop cs i s fd = some r) : r.2.Within n := by
  induction cs generalizing i s fd with
  | nil => rw [hloop] at hr; cases hr; exact h.2.2.2
  | cons c cs ih =>
    rw [hloop] at hr
    rw [List.length_cons] at hn
    by_cases hd : hstep s c = .dead
    · rw [if_pos hd] at hr; cases hr
    · rw [if_neg hd] at hr
      exact ih (i + 1) _ _ (by omega) (hrec_inv fd s (hstep s c) i n (by omega) h (fun hh => hstep_from c s hh) (fun hh => hstep_before c s hh)) hr

theorem slice_length_le (buf : List Byte) (v : Nat × Nat) : (slice buf v).length ≤ v.2 := by
  unfold slice
  rw [List.length_take]
  exact Nat.min_le_left _ _

/-- **C120 (CONNECT)**: for `CONNECT` a target is accepted only as a host and a port: both are reported, and
no schema, user info, path, query or fragment. -/
theorem c120_connect (buf : List Byte) (u : Url) (h : parseUrl buf true = some u) :
    (∃ v, u.fd .host = some v) ∧ (∃ v, u.fd .port = some v) ∧ u.fd .schema = none ∧ u.fd .userinfo = none ∧
      u.fd .path = none ∧ u.fd .query = none ∧ u.fd .fragment = none := by
  unfold parseUrl at h
  split at h
  · cases h
  · split at h
    · cases h
    · split at h
      · cases h
      · split at h
        · cases h
        · rename_i fd1 _
          split at h
          · cases h
          · rename_i hc
            simp only [true_and, Classical.not_not, Option.isSome_iff_exists, Option.isNone_iff_eq_none] at hc
            obtain ⟨c1, c2, c3, c4, c5, c6, c7⟩ := hc
            have : u.fd = fd1 := by
              split at h
              · simp only [Option.some.injEq] at h; rw [← h]
              · split at h
                · cases h
                · simp only [Option.some.injEq] at h; rw [← h]
            rw [this]
            exact ⟨c1, c2, c3, c7, c4, c5, c6⟩

/-- `a:1` is accepted, `a`, `a:1/` and `u@a:1` are not. -/
example : (∃ u, parseUrl [97, 58, 49] true = some u) ∧ parseUrl [97] true = none ∧ parseUrl [97, 58, 49, 47] true = none ∧
    parseUrl [117, 64, 97, 58, 49] true = none := by
  refine ⟨?_, by decide +kernel, by decide +kernel, by decide +kernel⟩
  rw [← Option.isSome_iff_exists]
  decide +kernel

/-- **C120 (inside the buffer)**: for every buffer of any length, also above 64 KiB, and for `CONNECT` too,
every field the parser reports lies inside the buffer. -/
theorem c120_within (buf : List Byte) (isConnect : Bool) (u : Url) (h : parseUrl buf isConnect = some u) (uf : UF) (v : Nat × Nat)
    (hv : u.fd uf = some v) : v.1 + v.2 ≤ buf.length := by
  have key : u.fd.Within buf.length := by
    unfold parseUrl at h
    by_cases hb : buf = []
    · rw [if_pos hb] at h; cases h
    · rw [if_neg hb] at h
      cases hl : loop buf 0 (if isConnect then .serverStart else .start) none false (fun _ => none) with
      | none => rw [hl] at h; cases h
      | some r =>
        obtain ⟨fa, fd⟩ := r
        have hw : fd.Within buf.length := by
          have := loop_within buf 0 _ none false (fun _ => none) (fun _ _ hx => by cases hx) _ hl
          simpa using this
        rw [hl] at h
        simp only [] at h
        by_cases hsn : (fd .schema).isSome = true ∧ (fd .host).isNone = true
        · rw [if_pos hsn] at h; cases h
        · rw [if_neg hsn] at h
          have hfd1 : ∀ fd1, (if (fd .host).isSome = true then parseHost buf fd fa else some fd) = some fd1 → fd1.Within buf.length := by
            intro fd1 he
            by_cases hh : (fd .host).isSome = true
            · rw [if_pos hh] at he
              unfold parseHost at he
              cases hfh : fd .host with
              | none => rw [hfh] at he; cases he
              | some w =>
                obtain ⟨off, len⟩ := w
                rw [hfh] at he
                simp only [] at he
                cases hlo : hloop (slice buf (off, len)) off (if fa then .userinfoStart else .hostStart) (fd.set .host (off, 0)) with
                | none => rw [hlo] at he; cases he
                | some r =>
                  rw [hlo] at he
                  obtain ⟨s, fd'⟩ := r
                  simp only [] at he
                  have hol := hw _ _ hfh
                  simp only [] at hol
                  have hsl := slice_length_le buf (off, len)
                  simp only [] at hsl
                  have hpu : fd .port = none ∧ fd .userinfo = none := by
                    have gen : ∀ (cs : List Byte) (i : Nat) (s : S) (old : Option UF) (fa : Bool) (fd : FD) (r : Bool × FD),
                        fd .port = none → fd .userinfo = none → loop cs i s old fa fd = some r → r.2 .port = none ∧ r.2 .userinfo = none := by
                      intro cs
                      induction cs with
                      | nil => intro i s old fa fd r h1 h2 hr; rw [loop] at hr; cases hr; exact ⟨h1, h2⟩
                      | cons c cs ih =>
                        intro i s old fa fd r h1 h2 hr
                        rw [loop] at hr
                        by_cases hd : step s c = .dead
                        · rw [if_pos hd] at hr; cases hr
                        · rw [if_neg hd] at hr
                          split at hr
                          · exact ih _ _ _ _ _ _ h1 h2 hr
                          · rename_i uf huf
                            have hp : UF.port ≠ uf ∧ UF.userinfo ≠ uf := by
                              cases hst : step s c <;> rw [hst] at huf <;> simp [fieldOf] at huf <;> subst huf <;> decide
                            refine ih _ _ _ _ _ _ ?_ ?_ hr
                            · split
                              · unfold FD.bump; rw [if_neg hp.1]; exact h1
                              · rw [set_other _ _ _ _ hp.1]; exact h1
                            · split
                              · unfold FD.bump; rw [if_neg hp.2]; exact h2
                              · rw [set_other _ _ _ _ hp.2]; exact h2
                    exact gen buf 0 _ none false (fun _ => none) _ rfl rfl hl
                  have hi : HInv (fd.set .host (off, 0)) (if fa then .userinfoStart else .hostStart) off buf.length := by
                    refine ⟨?_, ?_, ?_, within_set _ _ _ _ hw (by simp only []; omega)⟩
                    · intro v hv; rw [set_self] at hv; cases hv; exact ⟨by simp, fun _ => rfl⟩
                    · intro v hv; rw [set_other _ _ _ _ (by decide), hpu.1] at hv; cases hv
                    · intro v hv; rw [set_other _ _ _ _ (by decide), hpu.2] at hv; cases hv
                  have := hloop_inv (slice buf (off, len)) off buf.length _ _ (by omega) hi _ hlo
                  by_cases hbad' : hbad s = true
                  · rw [if_pos hbad'] at he; cases he
                  · rw [if_neg hbad'] at he; cases he; exact this
            · rw [if_neg hh] at he; cases he; exact hw
          split at h
          · cases h
          · rename_i fd1 he
            have hw1 := hfd1 fd1 he
            split at h
            · cases h
            · split at h
              · cases h; exact hw1
              · split at h
                · cases h
                · cases h; exact hw1
  exact key uf v hv

/-! ### Examples: the hypotheses are met -/

/-- `http://u:p@h.io:8080/a?q=1#f`. -/
def exUrl : AbsUrl :=
  ⟨[104, 116, 116, 112], ⟨some [117, 58, 112], .name [104, 46, 105, 111], some [56, 48, 56, 48]⟩, ⟨[47, 97], some [113, 61, 49], some [102]⟩⟩

/-- `ws://[fe80::1%eth0]`. -/
def exV6 : AbsUrl :=
  ⟨[119, 115], ⟨none, .v6 [102, 101, 56, 48, 58, 58, 49] (some [101, 116, 104, 48]), none⟩, ⟨[], none, none⟩⟩

example : exUrl.Ok ∧ exUrl.text.length < 65536 := by
  refine ⟨⟨by decide, by decide +kernel, ⟨⟨?_, ⟨by decide, by decide +kernel⟩, ?_⟩, ?_⟩, Or.inr ⟨[97], rfl, by decide +kernel⟩, ⟨?_, ?_⟩, by decide⟩, by decide⟩
  all_goals intro x hx; cases hx
  · decide +kernel
  · exact ⟨by decide, by decide +kernel⟩
  · decide +kernel
  · decide +kernel
  · decide +kernel

example : exV6.Ok ∧ exV6.text.length < 65536 := by
  refine ⟨⟨by decide, by decide +kernel, ⟨⟨?_, ⟨by decide, by decide +kernel, ?_⟩, ?_⟩, ?_⟩, Or.inl rfl, ⟨?_, ?_⟩, fun _ _ => rfl⟩, by decide⟩
  all_goals intro x hx; cases hx
  · exact ⟨by decide, by decide +kernel⟩

/-- A fragment directly after the host is refused: `http://h#f`. -/
example : parseUrl [104, 116, 116, 112, 58, 47, 47, 104, 35, 102] false = none := rfl

/-- The port must fit 16 bits: `http://h:65536`. -/
example : parseUrl [104, 116, 116, 112, 58, 47, 47, 104, 58, 54, 53, 53, 51, 54] false = none := rfl

example : PathOk (Target.mk [47, 97] (some [113]) (some [35, 102])).path ∧ (Target.mk [47, 97] (some [113]) (some [35, 102])).TailOk ∧
    (Target.mk [47, 97] (some [113]) (some [35, 102])).text.length < 65536 := by
  refine ⟨⟨47, [97], rfl, by decide, by decide +kernel⟩, ⟨?_, ?_⟩, by decide⟩
  all_goals intro x hx; cases hx; decide +kernel

end Ltio.Http.UrlParser
