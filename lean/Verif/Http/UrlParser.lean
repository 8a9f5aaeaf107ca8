import Mathlib.Data.List.Induction
import Mathlib.Tactic.IntervalCases

/-
thirdparty/url-parser/url_parser.c (`http_parser_parse_url`, HTTP_PARSER_STRICT as url_parser.h:51-53 sets it),
which gives `HttpRequest` its path, query and fragment (net_io/codec/http/http_message.cc:139-168).

`uint16_t` offsets and lengths are numbers below 65536, increased modulo 65536 as the code does.  A field
that is not in `field_set` is `none`.
-/
namespace Ltio.Http.UrlParser

abbrev Byte := UInt8

/-! ### Character classes (url_parser.c:28-72, 174-201) -/

/-- `normal_url_char` (40-72); T(v) is 0 (34-38). -/
def normalUrlChar : List Nat :=
  [0, 0, 0, 0, 246, 255, 255, 127, 255, 255, 255, 255, 255, 255, 255, 127,
   0, 0, 0, 0, 0, 0, 0, 0, 0, 0, 0, 0, 0, 0, 0, 0]

/-- `IS_URL_CHAR` with `BIT_AT` (28-32, 193). -/
def isUrlChar (c : Byte) : Bool := (normalUrlChar.getD (c.toNat >>> 3) 0).testBit (c.toNat &&& 7)

/-- `IS_ALPHA` (177-178). -/
def isAlpha (c : Byte) : Bool := 97 ≤ (c ||| 0x20) && (c ||| 0x20) ≤ 122
/-- `IS_NUM` (179). -/
def isNum (c : Byte) : Bool := 48 ≤ c && c ≤ 57
/-- `IS_ALPHANUM` (180). -/
def isAlphaNum (c : Byte) : Bool := isAlpha c || isNum c
/-- `IS_HEX` (181). -/
def isHex (c : Byte) : Bool := isNum c || (97 ≤ (c ||| 0x20) && (c ||| 0x20) ≤ 102)
/-- `IS_MARK` (182-184): - _ . ! ~ * ' ( ). -/
def isMark (c : Byte) : Bool := [45, 95, 46, 33, 126, 42, 39, 40, 41].contains c
/-- `IS_USERINFO_CHAR` (185-187): also % ; : & = + $ ,. -/
def isUserinfoChar (c : Byte) : Bool := isAlphaNum c || isMark c || [37, 59, 58, 38, 61, 43, 36, 44].contains c
/-- `IS_HOST_CHAR` (194). -/
def isHostChar (c : Byte) : Bool := isAlphaNum c || c == 46 || c == 45

/-! ### The state machine (url_parser.c:214-360) -/

/-- The states `parse_url_char` can be in (76-156). -/
inductive S | dead | start | schema | schemaSlash | schemaSlashSlash | serverStart | server | serverWithAt | path
  | queryStart | query | fragStart | frag
deriving DecidableEq, Repr

/-- The common part of `s_req_server_with_at`, `s_req_server_start` and `s_req_server` (273-292). -/
def serverChar (c : Byte) : S :=
  if c = 47 then .path else if c = 63 then .queryStart else if c = 64 then .serverWithAt
  else if isUserinfoChar c || c == 91 || c == 93 then .server else .dead

/-- `parse_url_char` (214-360). -/
def step (s : S) (c : Byte) : S :=
  if c = 32 ∨ c = 13 ∨ c = 10 ∨ c = 9 ∨ c = 12 then .dead
  else match s with
    | .start => if c = 47 ∨ c = 42 then .path else if isAlpha c then .schema else .dead
    | .schema => if isAlpha c then .schema else if c = 58 then .schemaSlash else .dead
    | .schemaSlash => if c = 47 then .schemaSlashSlash else .dead
    | .schemaSlashSlash => if c = 47 then .serverStart else .dead
    | .serverWithAt => if c = 64 then .dead else serverChar c
    | .serverStart => serverChar c
    | .server => serverChar c
    | .path => if isUrlChar c then .path else if c = 63 then .queryStart else if c = 35 then .fragStart else .dead
    | .queryStart => if isUrlChar c then .query else if c = 63 then .query else if c = 35 then .fragStart else .dead
    | .query => if isUrlChar c then .query else if c = 63 then .query else if c = 35 then .fragStart else .dead
    | .fragStart => if isUrlChar c then .frag else if c = 63 then .frag else if c = 35 then .fragStart else .dead
    | .frag => if isUrlChar c then .frag else if c = 63 ∨ c = 35 then .frag else .dead
    | .dead => .dead

/-- `http_parser_url_fields` (url_parser.h:55-64). -/
inductive UF | schema | host | port | path | query | fragment | userinfo
deriving DecidableEq, Repr

/-- The field of a state; `none` for delimiters (551-591). -/
def fieldOf : S → Option UF
  | .schema => some .schema
  | .server => some .host
  | .serverWithAt => some .host
  | .path => some .path
  | .query => some .query
  | .frag => some .fragment
  | _ => none

/-- `field_set` and `field_data` (url_parser.h:74-82). -/
abbrev FD := UF → Option (Nat × Nat)

def FD.set (fd : FD) (uf : UF) (v : Nat × Nat) : FD := fun x => if x = uf then some v else fd x

/-- `field_data[uf].len++`. -/
def FD.bump (fd : FD) (uf : UF) : FD := fun x => if x = uf then (fd x).map (fun v => (v.1, (v.2 + 1) % 65536)) else fd x

/-- The loop of `http_parser_parse_url` (548-604) from index `i`: `found_at` and the fields. -/
def loop : List Byte → Nat → S → Option UF → Bool → FD → Option (Bool × FD)
  | [], _, _, _, fa, fd => some (fa, fd)
  | c :: cs, i, s, old, fa, fd =>
    if step s c = .dead then none
    else match fieldOf (step s c) with
      | none => loop cs (i + 1) (step s c) old fa fd
      | some uf =>
        loop cs (i + 1) (step s c) (some uf) (fa || step s c == .serverWithAt)
          (if old = some uf then fd.bump uf else fd.set uf (i % 65536, 1))

/-! ### The host (url_parser.c:362-524) -/

/-- `http_host_state` (158-172). -/
inductive H | dead | userinfoStart | userinfo | hostStart | v6Start | host | v6 | v6End | zoneStart | zone | portStart | port
deriving DecidableEq, Repr

/-- The characters of a zone (422-427). -/
def isZoneChar (c : Byte) : Bool := isAlphaNum c || [37, 46, 45, 95, 126].contains c

/-- `http_parse_host_char` (362-442). -/
def hstep (s : H) (c : Byte) : H :=
  match s with
  | .userinfo | .userinfoStart => if c = 64 then .hostStart else if isUserinfoChar c then .userinfo else .dead
  | .hostStart => if c = 91 then .v6Start else if isHostChar c then .host else .dead
  | .host => if isHostChar c then .host else if c = 58 then .portStart else .dead
  | .v6End => if c = 58 then .portStart else .dead
  | .v6 => if c = 93 then .v6End else if isHex c || c == 58 || c == 46 then .v6 else if c = 37 then .zoneStart else .dead
  | .v6Start => if isHex c || c == 58 || c == 46 then .v6 else .dead
  | .zone => if c = 93 then .v6End else if isZoneChar c then .zone else .dead
  | .zoneStart => if isZoneChar c then .zone else .dead
  | .port | .portStart => if isNum c then .port else .dead
  | .dead => .dead

/-- The `switch(new_s)` of `http_parse_host` (464-504). -/
def hrecord (fd : FD) (s s' : H) (i : Nat) : FD :=
  match s' with
  | .host => (if s ≠ .host then fd.set .host (i % 65536, ((fd .host).map Prod.snd).getD 0) else fd).bump .host
  | .v6 => (if s ≠ .v6 then fd.set .host (i % 65536, ((fd .host).map Prod.snd).getD 0) else fd).bump .host
  | .zoneStart | .zone => fd.bump .host
  | .port => (if s ≠ .port then fd.set .port (i % 65536, 0) else fd).bump .port
  | .userinfo => (if s ≠ .userinfo then fd.set .userinfo (i % 65536, 0) else fd).bump .userinfo
  | _ => fd

/-- The loop of `http_parse_host` (457-506). -/
def hloop : List Byte → Nat → H → FD → Option (H × FD)
  | [], _, s, fd => some (s, fd)
  | c :: cs, i, s, fd =>
    if hstep s c = .dead then none else hloop cs (i + 1) (hstep s c) (hrecord fd s (hstep s c) i)

/-- States in which the host must not end (508-521). -/
def hbad : H → Bool
  | .hostStart | .v6Start | .v6 | .zoneStart | .zone | .portStart | .userinfo | .userinfoStart => true
  | _ => false

/-- Bytes `[off, off + len)` of a buffer. -/
def slice (buf : List Byte) (v : Nat × Nat) : List Byte := (buf.drop v.1).take v.2

/-- `http_parse_host` (444-524). -/
def parseHost (buf : List Byte) (fd : FD) (fa : Bool) : Option FD :=
  match fd .host with
  | none => none
  | some (off, len) =>
    match hloop (slice buf (off, len)) off (if fa then .userinfoStart else .hostStart) (fd.set .host (off, 0)) with
    | none => none
    | some (s, fd') => if hbad s then none else some fd'

/-- The loop over the port (637-646): `none` above 65535. -/
def portValue : List Byte → Nat → Option Nat
  | [], v => some v
  | c :: cs, v => if v * 10 + (c.toNat - 48) > 65535 then none else portValue cs (v * 10 + (c.toNat - 48))

/-- The result: fields and port. -/
structure Url where
  fd : FD
  port : Nat

/-- `http_parser_parse_url` (531-652); `none`: nonzero is returned. -/
def parseUrl (buf : List Byte) (isConnect : Bool) : Option Url :=
  if buf = [] then none
  else match loop buf 0 (if isConnect then .serverStart else .start) none false (fun _ => none) with
    | none => none
    | some (fa, fd) =>
      if (fd .schema).isSome ∧ (fd .host).isNone then none
      else match (if (fd .host).isSome then parseHost buf fd fa else some fd) with
        | none => none
        | some fd1 =>
          if isConnect ∧ ¬ ((fd1 .host).isSome ∧ (fd1 .port).isSome ∧ (fd1 .schema).isNone ∧ (fd1 .path).isNone ∧
              (fd1 .query).isNone ∧ (fd1 .fragment).isNone ∧ (fd1 .userinfo).isNone) then none
          else match fd1 .port with
            | none => some ⟨fd1, 0⟩
            | some v => match portValue (slice buf v) 0 with
              | none => none
              | some p => some ⟨fd1, p⟩

/-! ### Specification -/

/-- Characters allowed in a path: printable ASCII without space, `#` and `?`. -/
def PathChar (c : Byte) : Prop := 33 ≤ c ∧ c ≤ 126 ∧ c ≠ 35 ∧ c ≠ 63
/-- In a query also `?`. -/
def QueryChar (c : Byte) : Prop := 33 ≤ c ∧ c ≤ 126 ∧ c ≠ 35
/-- In a fragment also `#`. -/
def FragChar (c : Byte) : Prop := 33 ≤ c ∧ c ≤ 126

/-- The text of a request target after the host: path, `?` and query, `#` and fragment. -/
structure Target where
  path : List Byte
  query : Option (List Byte)
  fragment : Option (List Byte)

/-- A delimiter and a component, or nothing. -/
def after (d : Byte) : Option (List Byte) → List Byte
  | none => []
  | some x => d :: x

def Target.text (t : Target) : List Byte := t.path ++ (after 63 t.query ++ after 35 t.fragment)

/-- Query and fragment are well formed. -/
def Target.TailOk (t : Target) : Prop :=
  (∀ q, t.query = some q → ∀ c ∈ q, QueryChar c) ∧ (∀ f, t.fragment = some f → ∀ c ∈ f, FragChar c)

/-- The fragment as the parser reports it: without leading `#`. -/
def Target.frag (t : Target) : Option (List Byte) := t.fragment.map (fun f => f.dropWhile (· == 35))

/-- A path that begins with `/` (or `*`). -/
def PathOk (p : List Byte) : Prop := ∃ c r, p = c :: r ∧ (c = 47 ∨ c = 42) ∧ ∀ x ∈ r, PathChar x

/-- What a field reads: the bytes, `none` if not set. -/
def Url.read (u : Url) (buf : List Byte) (uf : UF) : Option (List Byte) := (u.fd uf).map (slice buf)

/-- Empty components are not set. -/
def nonEmpty : Option (List Byte) → Option (List Byte)
  | some (c :: r) => some (c :: r)
  | _ => none

/-! ### Character lemmas -/

theorem byte_cases {P : Byte → Prop} (h : ∀ k : Fin 256, P (UInt8.ofNat k.val)) (c : Byte) : P c := by
  have := h ⟨c.toNat, UInt8.toNat_lt c⟩
  simpa using this

theorem urlChar_iff (c : Byte) : isUrlChar c = true ↔ PathChar c :=
  byte_cases (P := fun c => isUrlChar c = true ↔ PathChar c) (by unfold PathChar; decide +kernel) c

instance (c : Byte) : Decidable (PathChar c) := by unfold PathChar; infer_instance
instance (c : Byte) : Decidable (QueryChar c) := by unfold QueryChar; infer_instance
instance (c : Byte) : Decidable (FragChar c) := by unfold FragChar; infer_instance

theorem step_path (c : Byte) : step .path c =
    if PathChar c then .path else if c = 63 then .queryStart else if c = 35 then .fragStart else .dead :=
  byte_cases (P := fun c => step .path c =
    if PathChar c then .path else if c = 63 then .queryStart else if c = 35 then .fragStart else .dead) (by decide +kernel) c

theorem step_query (c : Byte) : step .query c = (if QueryChar c then .query else if c = 35 then .fragStart else .dead) ∧
    step .queryStart c = step .query c :=
  byte_cases (P := fun c => step .query c = (if QueryChar c then .query else if c = 35 then .fragStart else .dead) ∧
    step .queryStart c = step .query c) (by decide +kernel) c

theorem step_frag (c : Byte) : step .frag c = (if FragChar c then .frag else .dead) ∧
    step .fragStart c = (if FragChar c ∧ c ≠ 35 then .frag else if c = 35 then .fragStart else .dead) :=
  byte_cases (P := fun c => step .frag c = (if FragChar c then .frag else .dead) ∧
    step .fragStart c = (if FragChar c ∧ c ≠ 35 then .frag else if c = 35 then .fragStart else .dead)) (by decide +kernel) c

/-! ### Runs of the loop -/

theorem set_set (fd : FD) (uf : UF) (v w : Nat × Nat) : (fd.set uf v).set uf w = fd.set uf w := by
  funext x; unfold FD.set; by_cases h : x = uf <;> simp [h]

theorem bump_set (fd : FD) (uf : UF) (o l : Nat) : (fd.set uf (o, l)).bump uf = fd.set uf (o, (l + 1) % 65536) := by
  funext x; unfold FD.set FD.bump; by_cases h : x = uf <;> simp [h]

theorem set_self (fd : FD) (uf : UF) (v : Nat × Nat) : (fd.set uf v) uf = some v := by simp [FD.set]

theorem set_other (fd : FD) (uf x : UF) (v : Nat × Nat) (h : x ≠ uf) : (fd.set uf v) x = fd x := by simp [FD.set, h]

/-- A run of characters that stay in a state with a field. -/
theorem loop_run (s : S) (uf : UF) (hf : fieldOf s = some uf) (hw : s ≠ .serverWithAt) (cs rest : List Byte)
    (h : ∀ c ∈ cs, step s c = s) (i : Nat) (fa : Bool) (fd : FD) (o l : Nat) (hl : l < 65536) :
    loop (cs ++ rest) i s (some uf) fa (fd.set uf (o, l)) =
      loop rest (i + cs.length) s (some uf) fa (fd.set uf (o, (l + cs.length) % 65536)) := by
  have hd : s ≠ .dead := by intro e; rw [e] at hf; cases hf
  induction cs generalizing i l with
  | nil => simp [Nat.mod_eq_of_lt hl]
  | cons c cs ih =>
    rw [List.cons_append, loop, h c (by simp), if_neg hd, hf]
    simp only [if_true, bump_set]
    have hb : (s == S.serverWithAt) = false := beq_eq_false_iff_ne.mpr hw
    rw [hb, Bool.or_false, ih (fun x hx => h x (by simp [hx])) (i + 1) ((l + 1) % 65536) (Nat.mod_lt _ (by decide))]
    rw [List.length_cons, Nat.mod_add_mod, show i + 1 + cs.length = i + (cs.length + 1) by omega,
      show l + 1 + cs.length = l + (cs.length + 1) by omega]

/-- A component: a character that enters a state with a field, and a run. -/
theorem loop_enter (s0 s : S) (uf : UF) (hf : fieldOf s = some uf) (hw : s ≠ .serverWithAt) (c : Byte) (cs rest : List Byte)
    (h0 : step s0 c = s) (h : ∀ x ∈ cs, step s x = s) (i : Nat) (old : Option UF) (ho : old ≠ some uf) (fa : Bool) (fd : FD) :
    loop (c :: cs ++ rest) i s0 old fa fd =
      loop rest (i + (cs.length + 1)) s (some uf) fa (fd.set uf (i % 65536, (cs.length + 1) % 65536)) := by
  have hd : s ≠ .dead := by intro e; rw [e] at hf; cases hf
  rw [List.cons_append, loop, h0, if_neg hd, hf]
  have hb : (s == S.serverWithAt) = false := beq_eq_false_iff_ne.mpr hw
  simp only [if_neg ho, hb, Bool.or_false]
  rw [loop_run s uf hf hw cs rest h (i + 1) fa fd (i % 65536) 1 (by decide)]
  rw [show i + 1 + cs.length = i + (cs.length + 1) by omega, show 1 + cs.length = cs.length + 1 by omega]

/-- A delimiter. -/
theorem loop_delim (s s' : S) (c : Byte) (h : step s c = s') (hd : s' ≠ .dead) (hf : fieldOf s' = none) (cs : List Byte) (i : Nat)
    (old : Option UF) (fa : Bool) (fd : FD) : loop (c :: cs) i s old fa fd = loop cs (i + 1) s' old fa fd := by
  rw [loop, h, if_neg hd, hf]

/-- Setting a component that may be empty. -/
def FD.setOpt (fd : FD) (uf : UF) (i : Nat) : List Byte → FD
  | [] => fd
  | c :: r => fd.set uf (i % 65536, (c :: r).length % 65536)

theorem loop_hashes (f : List Byte) (hf : ∀ c ∈ f, FragChar c) (i : Nat) (old : Option UF) (ho : old ≠ some .fragment)
    (fa : Bool) (fd : FD) :
    loop f i .fragStart old fa fd =
      some (fa, fd.setOpt .fragment (i + (f.length - (f.dropWhile (· == 35)).length)) (f.dropWhile (· == 35))) := by
  induction f generalizing i with
  | nil => rfl
  | cons c f ih =>
    by_cases hc : c = 35
    · subst hc
      rw [loop_delim .fragStart .fragStart 35 (by decide +kernel) (by decide) rfl, ih (fun x hx => hf x (by simp [hx]))]
      have hle : (f.dropWhile (· == 35)).length ≤ f.length := (List.dropWhile_suffix _).length_le
      have e : (35 :: f).dropWhile (· == (35 : Byte)) = f.dropWhile (· == 35) := by simp
      rw [e, List.length_cons]
      congr 3
      omega
    · have hb : (c == (35 : Byte)) = false := beq_eq_false_iff_ne.mpr hc
      have e : (c :: f).dropWhile (· == (35 : Byte)) = c :: f := by simp [hb]
      rw [e, Nat.sub_self, Nat.add_zero]
      have := loop_enter .fragStart .frag .fragment rfl (by decide) c f []
        (by rw [(step_frag c).2, if_pos ⟨hf c (by simp), hc⟩])
        (fun x hx => by rw [(step_frag x).1, if_pos (hf x (by simp [hx]))]) i old ho fa fd
      rw [List.append_nil] at this
      rw [this]
      rfl

/-- `#` and a fragment, or nothing. -/
theorem loop_fragText (s : S) (f : Option (List Byte)) (hs : ∀ x, f = some x → step s 35 = .fragStart)
    (hf : ∀ x, f = some x → ∀ c ∈ x, FragChar c) (i : Nat) (old : Option UF) (ho : old ≠ some .fragment) (fa : Bool) (fd : FD) :
    ∃ o, loop (after 35 f) i s old fa fd =
      some (fa, fd.setOpt .fragment o ((f.map (fun x => x.dropWhile (· == 35))).getD [])) ∧
      o + ((f.map (fun x => x.dropWhile (· == 35))).getD []).length = i + (after 35 f).length := by
  cases f with
  | none => exact ⟨i, rfl, rfl⟩
  | some x =>
    have hle : (x.dropWhile (· == 35)).length ≤ x.length := (List.dropWhile_suffix _).length_le
    refine ⟨i + 1 + (x.length - (x.dropWhile (· == 35)).length), ?_, ?_⟩
    · simp only [Option.map_some, Option.getD_some, after]
      rw [loop_delim s .fragStart 35 (hs x rfl) (by decide) rfl, loop_hashes x (hf x rfl) (i + 1) old ho fa fd]
    · simp only [Option.map_some, Option.getD_some, List.length_cons, after]
      omega

/-- Query and fragment after a path or a host. -/
theorem loop_tail (s : S) (t : Target) (ht : t.TailOk) (hq : t.query ≠ none → step s 63 = .queryStart)
    (hf : t.query = none → t.fragment ≠ none → step s 35 = .fragStart)
    (i : Nat) (old : Option UF) (ho : old ≠ some .query) (ho' : old ≠ some .fragment) (fa : Bool) (fd : FD) :
    ∃ o, loop (after 63 t.query ++ after 35 t.fragment) i s old fa fd =
      some (fa, (fd.setOpt .query (i + 1) (t.query.getD [])).setOpt .fragment o (t.frag.getD [])) ∧
      o + (t.frag.getD []).length = i + (after 63 t.query ++
        after 35 t.fragment : List Byte).length := by
  cases hqq : t.query with
  | none =>
    simp only [List.nil_append, Option.getD_none, after]
    exact loop_fragText s t.fragment (fun x hx => hf hqq (by rw [hx]; simp)) ht.2 i old ho' fa fd
  | some q =>
    simp only [Option.getD_some]
    rw [show after 63 (some q) = 63 :: q from rfl, List.cons_append, loop_delim s .queryStart 63 (hq (by rw [hqq]; simp)) (by decide) rfl]
    cases q with
    | nil =>
      obtain ⟨o, h1, h2⟩ := loop_fragText .queryStart t.fragment (fun _ _ => by decide +kernel) ht.2 (i + 1) old ho' fa fd
      refine ⟨o, h1, ?_⟩
      show o + _ = _
      unfold Target.frag
      rw [h2]
      simp
      omega
    | cons c q =>
      have hqc := ht.1 _ hqq
      rw [loop_enter .queryStart .query .query rfl (by decide) c q _
        (by rw [(step_query c).2, (step_query c).1, if_pos (hqc c (by simp))])
        (fun x hx => by rw [(step_query x).1, if_pos (hqc x (by simp [hx]))]) (i + 1) old ho fa fd]
      obtain ⟨o, h1, h2⟩ := loop_fragText .query t.fragment (fun _ _ => by decide +kernel) ht.2 (i + 1 + (q.length + 1)) (some .query)
        (by decide) fa (fd.set .query ((i + 1) % 65536, (q.length + 1) % 65536))
      refine ⟨o, h1, ?_⟩
      unfold Target.frag
      rw [h2]
      simp
      omega

/-! ### Origin form -/

theorem slice_mid (a b c : List Byte) : slice (a ++ (b ++ c)) (a.length, b.length) = b := by
  unfold slice; simp

theorem slice_suffix (buf x : List Byte) (h : x <:+ buf) (o : Nat) (ho : o + x.length = buf.length) :
    slice buf (o, x.length) = x := by
  obtain ⟨p, rfl⟩ := h
  have : o = p.length := by simp at ho; omega
  subst this
  unfold slice
  simp

theorem setOpt_self (fd : FD) (uf : UF) (i : Nat) (x : List Byte) (h : fd uf = none) :
    fd.setOpt uf i x uf = if x = [] then none else some (i % 65536, x.length % 65536) := by
  cases x with
  | nil => simp [FD.setOpt, h]
  | cons c r => simp [FD.setOpt, FD.set]

theorem setOpt_other (fd : FD) (uf v : UF) (i : Nat) (x : List Byte) (h : v ≠ uf) : fd.setOpt uf i x v = fd v := by
  cases x with
  | nil => rfl
  | cons c r => simp [FD.setOpt, FD.set, h]

theorem nonEmpty_getD (o : Option (List Byte)) : nonEmpty o = if o.getD [] = [] then none else some (o.getD []) := by
  rcases o with _ | (_ | ⟨c, r⟩) <;> rfl

/-- Reading query and fragment of a text `pre ++ after 63 q ++ after 35 f`. -/
theorem read_tail (pre : List Byte) (t : Target) (fd : FD) (hq : fd .query = none) (hf : fd .fragment = none) (o : Nat)
    (ho : o + (t.frag.getD []).length = pre.length + (after 63 t.query ++ after 35 t.fragment).length)
    (hlen : (pre ++ (after 63 t.query ++ after 35 t.fragment)).length < 65536) :
    (((fd.setOpt .query (pre.length + 1) (t.query.getD [])).setOpt .fragment o (t.frag.getD [])) .query).map
        (slice (pre ++ (after 63 t.query ++ after 35 t.fragment))) = nonEmpty t.query ∧
    (((fd.setOpt .query (pre.length + 1) (t.query.getD [])).setOpt .fragment o (t.frag.getD [])) .fragment).map
        (slice (pre ++ (after 63 t.query ++ after 35 t.fragment))) = nonEmpty t.frag := by
  constructor
  · rw [setOpt_other _ _ _ _ _ (by decide), setOpt_self _ _ _ _ hq, nonEmpty_getD]
    cases hqq : t.query with
    | none => rfl
    | some q =>
      simp only [Option.getD_some]
      by_cases hn : q = []
      · simp [hn]
      · rw [if_neg hn, if_neg hn]
        simp only [Option.map_some, Option.some.injEq]
        rw [hqq] at hlen
        simp only [after, List.length_append, List.length_cons] at hlen
        rw [Nat.mod_eq_of_lt (by omega), Nat.mod_eq_of_lt (by omega)]
        have := slice_mid (pre ++ [63]) q (after 35 t.fragment)
        simpa [after] using this
  · rw [setOpt_self _ _ _ _ (by rw [setOpt_other _ _ _ _ _ (by decide)]; exact hf), nonEmpty_getD]
    by_cases hn : t.frag.getD [] = []
    · simp [hn]
    · rw [if_neg hn, if_neg hn]
      simp only [Option.map_some, Option.some.injEq]
      rw [List.length_append] at hlen
      have hx : 0 < (t.frag.getD []).length := List.length_pos_iff.mpr hn
      rw [Nat.mod_eq_of_lt (by omega), Nat.mod_eq_of_lt (by omega)]
      refine slice_suffix _ _ ?_ o (by rw [List.length_append]; exact ho)
      unfold Target.frag
      cases hff : t.fragment with
      | none => exact List.nil_suffix
      | some f =>
        simp only [Option.map_some, Option.getD_some]
        refine (List.dropWhile_suffix _).trans ?_
        exact ⟨pre ++ (after 63 t.query ++ [35]), by rw [show after 35 (some f) = 35 :: f from rfl]; simp⟩

/-- What the loop does with a target. -/
theorem loop_target (t : Target) (hp : PathOk t.path) (ht : t.TailOk) :
    ∃ o, loop t.text 0 .start none false (fun _ => none) = some (false,
      ((FD.set (fun _ => none) .path (0, t.path.length % 65536)).setOpt .query (t.path.length + 1) (t.query.getD [])).setOpt
        .fragment o (t.frag.getD [])) ∧
      o + (t.frag.getD []).length = t.text.length := by
  obtain ⟨c, r, hpc, hc, hr⟩ := hp
  have hst : step .start c = .path := by rcases hc with rfl | rfl <;> decide +kernel
  unfold Target.text
  rw [hpc, loop_enter .start .path .path rfl (by decide) c r _ hst
    (fun x hx => by rw [step_path, if_pos (hr x hx)]) 0 none (by decide) false (fun _ => none)]
  obtain ⟨o, h1, h2⟩ := loop_tail .path t ht (fun _ => by decide +kernel) (fun _ _ => by decide +kernel) (0 + (r.length + 1)) (some .path)
    (by decide) (by decide) false (FD.set (fun _ => none) .path (0 % 65536, (r.length + 1) % 65536))
  refine ⟨o, ?_, ?_⟩
  · rw [h1]; simp
  · rw [h2]; simp; omega

/-- **C120 (origin form)**: for every request target that consists of a path, possibly a query and possibly a
fragment, below 64 KiB, the parser succeeds and reports exactly these parts (empty ones as absent, and
fragments without leading `#`), and no scheme, user, host or port. -/
theorem c120_origin (t : Target) (hp : PathOk t.path) (ht : t.TailOk) (hlen : t.text.length < 65536) :
    ∃ u, parseUrl t.text false = some u ∧ u.read t.text .path = some t.path ∧ u.read t.text .query = nonEmpty t.query ∧
      u.read t.text .fragment = nonEmpty t.frag ∧ u.read t.text .schema = none ∧ u.read t.text .userinfo = none ∧
      u.read t.text .host = none ∧ u.read t.text .port = none ∧ u.port = 0 := by
  obtain ⟨o, h1, h2⟩ := loop_target t hp ht
  have hne : t.text ≠ [] := by
    obtain ⟨c, r, hpc, _⟩ := hp
    unfold Target.text
    rw [hpc]
    simp
  have hother : ∀ v : UF, v ≠ .path → v ≠ .query → v ≠ .fragment →
      ((FD.set (fun _ => none) .path (0, t.path.length % 65536)).setOpt .query (t.path.length + 1) (t.query.getD [])).setOpt
        .fragment o (t.frag.getD []) v = none := by
    intro v hv1 hv2 hv3
    rw [setOpt_other _ _ _ _ _ hv3, setOpt_other _ _ _ _ _ hv2, set_other _ _ _ _ hv1]
  refine ⟨⟨((FD.set (fun _ => none) .path (0, t.path.length % 65536)).setOpt .query (t.path.length + 1) (t.query.getD [])).setOpt
        .fragment o (t.frag.getD []), 0⟩, ?_, ?_⟩
  · unfold parseUrl
    rw [if_neg hne]
    simp only [Bool.false_eq_true, if_false, h1]
    rw [hother .schema (by decide) (by decide) (by decide), hother .host (by decide) (by decide) (by decide)]
    simp only [Option.isSome_none, Bool.false_eq_true, false_and, if_false]
    rw [hother .port (by decide) (by decide) (by decide)]
  · have hlen' := hlen
    unfold Target.text at hlen'
    rw [List.length_append] at hlen'
    have rt := read_tail t.path t (FD.set (fun _ => none) .path (0, t.path.length % 65536)) rfl rfl o
      (by rw [h2]; simp [Target.text]) hlen
    refine ⟨?_, rt.1, rt.2, ?_, ?_, ?_, ?_, rfl⟩
    · unfold Url.read
      simp only []
      rw [setOpt_other _ _ _ _ _ (by decide), setOpt_other _ _ _ _ _ (by decide), set_self, Nat.mod_eq_of_lt (by omega)]
      simp only [Option.map_some, Option.some.injEq]
      have := slice_mid [] t.path (after 63 t.query ++ after 35 t.fragment)
      simpa [Target.text] using this
    all_goals
      unfold Url.read
      simp only []
      rw [hother _ (by decide) (by decide) (by decide)]
      rfl

/-! ### Nothing else is accepted -/

theorem foldl_dead (cs : List Byte) : cs.foldl step .dead = .dead := by
  induction cs with
  | nil => rfl
  | cons c cs ih =>
    rw [List.foldl_cons]
    have : step .dead c = .dead := by unfold step; split <;> rfl
    rw [this]
    exact ih

/-- The loop succeeds exactly if the state machine survives. -/
theorem loop_isSome (cs : List Byte) (i : Nat) (s : S) (hs : s ≠ .dead) (old : Option UF) (fa : Bool) (fd : FD) :
    (loop cs i s old fa fd).isSome ↔ cs.foldl step s ≠ .dead := by
  induction cs generalizing i s old fa fd with
  | nil => simpa [loop] using hs
  | cons c cs ih =>
    rw [loop, List.foldl_cons]
    by_cases hd : step s c = .dead
    · rw [if_pos hd, hd, foldl_dead]; simp
    · rw [if_neg hd]
      split
      · exact ih _ _ hd _ _ _
      · exact ih _ _ hd _ _ _

theorem frag_only (cs : List Byte) (s : S) (hs : s = .frag ∨ s = .fragStart) (h : cs.foldl step s ≠ .dead) : ∀ c ∈ cs, FragChar c := by
  induction cs generalizing s with
  | nil => simp
  | cons c cs ih =>
    rw [List.foldl_cons] at h
    have key : FragChar c ∧ (step s c = .frag ∨ step s c = .fragStart) := by
      rcases hs with rfl | rfl
      · rw [(step_frag c).1] at h ⊢
        by_cases hc : FragChar c
        · simp [hc]
        · rw [if_neg hc, foldl_dead] at h; exact absurd rfl h
      · rw [(step_frag c).2] at h ⊢
        by_cases hc : c = 35
        · subst hc; exact ⟨by decide +kernel, by simp⟩
        · by_cases hf : FragChar c
          · simp [hf, hc]
          · rw [if_neg (by simp [hf]), if_neg hc, foldl_dead] at h; exact absurd rfl h
    intro x hx
    rcases List.mem_cons.mp hx with rfl | hx
    · exact key.1
    · exact ih _ key.2 h x hx

theorem query_only (cs : List Byte) (s : S) (hs : s = .query ∨ s = .queryStart) (h : cs.foldl step s ≠ .dead) :
    ∃ q f, cs = q ++ after 35 f ∧ (∀ c ∈ q, QueryChar c) ∧ (∀ x, f = some x → ∀ c ∈ x, FragChar c) := by
  induction cs generalizing s with
  | nil => exact ⟨[], none, rfl, by simp, by simp⟩
  | cons c cs ih =>
    rw [List.foldl_cons] at h
    have e : step s c = if QueryChar c then .query else if c = 35 then .fragStart else .dead := by
      rcases hs with rfl | rfl
      · exact (step_query c).1
      · exact (step_query c).2.trans (step_query c).1
    rw [e] at h
    by_cases hc : QueryChar c
    · rw [if_pos hc] at h
      obtain ⟨q, f, h1, h2, h3⟩ := ih .query (Or.inl rfl) h
      refine ⟨c :: q, f, by rw [h1]; rfl, ?_, h3⟩
      intro x hx
      rcases List.mem_cons.mp hx with rfl | hx
      · exact hc
      · exact h2 x hx
    · rw [if_neg hc] at h
      by_cases hc35 : c = 35
      · rw [if_pos hc35] at h
        subst hc35
        refine ⟨[], some cs, rfl, by simp, ?_⟩
        intro x hx
        cases hx
        exact frag_only cs .fragStart (Or.inr rfl) h
      · rw [if_neg hc35, foldl_dead] at h
        exact absurd rfl h

theorem path_only (cs : List Byte) (h : cs.foldl step .path ≠ .dead) :
    ∃ p q f, cs = p ++ (after 63 q ++ after 35 f) ∧ (∀ c ∈ p, PathChar c) ∧ (∀ x, q = some x → ∀ c ∈ x, QueryChar c) ∧
      (∀ x, f = some x → ∀ c ∈ x, FragChar c) := by
  induction cs with
  | nil => exact ⟨[], none, none, rfl, by simp, by simp, by simp⟩
  | cons c cs ih =>
    rw [List.foldl_cons, step_path] at h
    by_cases hc : PathChar c
    · rw [if_pos hc] at h
      obtain ⟨p, q, f, h1, h2, h3, h4⟩ := ih h
      refine ⟨c :: p, q, f, by rw [h1]; rfl, ?_, h3, h4⟩
      intro x hx
      rcases List.mem_cons.mp hx with rfl | hx
      · exact hc
      · exact h2 x hx
    · rw [if_neg hc] at h
      by_cases h63 : c = 63
      · rw [if_pos h63] at h
        subst h63
        obtain ⟨q, f, h1, h2, h3⟩ := query_only cs .queryStart (Or.inr rfl) h
        exact ⟨[], some q, f, by rw [h1]; rfl, by simp, by intro x hx; cases hx; exact h2, h3⟩
      · rw [if_neg h63] at h
        by_cases h35 : c = 35
        · rw [if_pos h35] at h
          subst h35
          exact ⟨[], none, some cs, rfl, by simp, by simp, by intro x hx; cases hx; exact frag_only cs .fragStart (Or.inr rfl) h⟩
        · rw [if_neg h35, foldl_dead] at h
          exact absurd rfl h

/-- **C120 (nothing else in origin form)**: for every buffer that does not begin with a letter, of any length,
the parser succeeds exactly if the buffer is a path that begins with `/` or `*`, possibly followed by a query
and possibly by a fragment, of their characters. -/
theorem c120_origin_iff (buf : List Byte) (hb : ∀ c, buf.head? = some c → isAlpha c = false) :
    (parseUrl buf false).isSome ↔ ∃ t : Target, PathOk t.path ∧ t.TailOk ∧ buf = t.text := by
  constructor
  · intro h
    cases buf with
    | nil => simp [parseUrl] at h
    | cons c cs =>
      have hl : (loop (c :: cs) 0 .start none false (fun _ => none)).isSome := by
        unfold parseUrl at h
        rw [if_neg (by simp)] at h
        simp only [Bool.false_eq_true, if_false] at h
        cases hl : loop (c :: cs) 0 .start none false (fun _ => none) with
        | none => rw [hl] at h; simp at h
        | some x => rfl
      rw [loop_isSome _ _ _ (by decide), List.foldl_cons] at hl
      have hc : (c = 47 ∨ c = 42) ∧ step .start c = .path := by
        have ha := hb c rfl
        by_cases hc : c = 47 ∨ c = 42
        · exact ⟨hc, by rcases hc with rfl | rfl <;> decide +kernel⟩
        · have : step .start c = .dead := by
            unfold step
            split
            · rfl
            · simp [ha]
          rw [this, foldl_dead] at hl
          exact absurd rfl hl
      rw [hc.2] at hl
      obtain ⟨p, q, f, h1, h2, h3, h4⟩ := path_only cs hl
      refine ⟨⟨c :: p, q, f⟩, ⟨c, p, rfl, hc.1, h2⟩, ⟨h3, h4⟩, ?_⟩
      rw [h1]; rfl
  · rintro ⟨t, hp, ht, rfl⟩
    obtain ⟨o, h1, h2⟩ := loop_target t hp ht
    have hne : t.text ≠ [] := by
      obtain ⟨c, r, hpc, _⟩ := hp
      unfold Target.text
      rw [hpc]
      simp
    have hother : ∀ v : UF, v ≠ .path → v ≠ .query → v ≠ .fragment →
        ((FD.set (fun _ => none) .path (0, t.path.length % 65536)).setOpt .query (t.path.length + 1) (t.query.getD [])).setOpt
          .fragment o (t.frag.getD []) v = none := by
      intro v hv1 hv2 hv3
      rw [setOpt_other _ _ _ _ _ hv3, setOpt_other _ _ _ _ _ hv2, set_other _ _ _ _ hv1]
    unfold parseUrl
    rw [if_neg hne]
    simp only [Bool.false_eq_true, if_false, h1]
    rw [hother .schema (by decide) (by decide) (by decide), hother .host (by decide) (by decide) (by decide)]
    simp only [Option.isSome_none, Bool.false_eq_true, false_and, if_false]
    rw [hother .port (by decide) (by decide) (by decide)]
    rfl

/-- **C120 (long targets)**: violation.  Lengths are kept in 16 bits: of a path of 64 KiB or more only its
length modulo 65536 is reported, so a path of 65537 bytes is reported as its first byte. -/
theorem c120_long_violated (p : List Byte) (hp : PathOk p) :
    ∃ u, parseUrl p false = some u ∧ u.read p .path = some (p.take (p.length % 65536)) := by
  have ht : (Target.mk p none none).TailOk := ⟨by simp, by simp⟩
  obtain ⟨o, h1, _⟩ := loop_target ⟨p, none, none⟩ hp ht
  have e : (Target.mk p none none).text = p := by simp [Target.text, after]
  rw [e] at h1
  have hne : p ≠ [] := by
    obtain ⟨c, r, hpc, _⟩ := hp
    rw [hpc]
    simp
  have h3 : loop p 0 .start none false (fun _ => none) = some (false, FD.set (fun _ => none) .path (0, p.length % 65536)) := h1
  refine ⟨⟨FD.set (fun _ => none) .path (0, p.length % 65536), 0⟩, ?_, ?_⟩
  · unfold parseUrl
    rw [if_neg hne]
    simp only [Bool.false_eq_true, if_false, h3]
    rfl
  · unfold Url.read
    simp only []
    rw [set_self]
    rfl

end Ltio.Http.UrlParser
