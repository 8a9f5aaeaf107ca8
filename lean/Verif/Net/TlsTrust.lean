/-
C199, C200: whom a TLS connection trusts: `SSLCtx` (base/crypto/lt_ssl.cc), and which of them a client or a server uses.

OpenSSL by its contract: loading a file of authorities fails unless it has one; a directory is not looked into, but the empty name is refused
(by_dir.c); a directory of authorities is read when a certificate is verified; loading adds to what is there; a key that does not fit the certificate is
refused (`drop`: and the certificate dropped, as 1.1.1 does), a certificate that does not fit the key drops the key; a null context is undefined behaviour;
verification is of the chain only, unless a name is set (`SSL_set1_host`, `X509_VERIFY_PARAM_set1_host`), which no line of /repo does.
Names with a list separator are not considered.  Times, revocation, ciphers and protocol versions are left out.  ALPN is C163.
-/
namespace Ltio.Net.TlsTrust

/-! ### The world -/

abbrev Path := String
abbrev Host := String
abbrev Auth := Nat
abbrev Key := Nat

/-- A certificate with its chain: the public key, and the names it is for. -/
structure Cert where
  id : Nat
  key : Key
  names : List Host
deriving DecidableEq, Repr

/-- What a name of a file refers to. -/
inductive Entry where
  | missing
  /-- the authorities, the certificate chain and the key in a PEM file -/
  | file (cas : List Auth) (chain : Option Cert) (key : Option Key)
  | dir (cas : List Auth)
deriving DecidableEq, Repr

/-- `issued a c`: `c` has a valid chain to `a`; `system`: what the default verify paths hold. -/
structure Pki where
  entry : Path → Entry
  system : List Auth
  issued : Auth → Cert → Bool
  drop : Bool

def Entry.cas : Entry → List Auth
  | .file cas _ _ => cas
  | _ => []

def Entry.chain : Entry → Option Cert
  | .file _ c _ => c
  | _ => none

def Entry.key : Entry → Option Key
  | .file _ _ k => k
  | _ => none

/-- Looking up authorities in what was given as a directory. -/
def Entry.under : Entry → List Auth
  | .dir cas => cas
  | _ => []

/-- There is no file without a name. -/
def Pki.at (w : Pki) (p : Path) : Entry := if p = "" then .missing else w.entry p

/-! ### OpenSSL -/

/-- An `SSL_CTX`.  `peer`: `SSL_VERIFY_PEER`; `must`: `SSL_VERIFY_FAIL_IF_NO_PEER_CERT`. -/
structure Ctx where
  anchors : List Auth
  peer : Bool
  must : Bool
  cert : Option Cert
  key : Option Key
deriving DecidableEq, Repr

/-- `SSL_CTX_new`. -/
def Ctx.new : Ctx := ⟨[], false, false, none, none⟩

/-- `SSL_CTX_load_verify_locations`; `none` for a null pointer. -/
def Ctx.loadLocations (w : Pki) (c : Ctx) (file path : Option Path) : Bool × Ctx :=
  if file = none ∧ path = none then (false, c) else
  let (ok, c1) := (match file with
    | none => (true, c)
    | some f => if (w.at f).cas = [] then (false, c) else (true, { c with anchors := c.anchors ++ (w.at f).cas }))
  if ok = false then (false, c1) else
  match path with
  | none => (true, c1)
  | some p => if p = "" then (false, c1) else (true, { c1 with anchors := c1.anchors ++ (w.at p).under })

/-- `SSL_CTX_use_certificate_chain_file`. -/
def Ctx.useChain (w : Pki) (c : Ctx) (f : Path) : Bool × Ctx :=
  match (w.at f).chain with
  | none => (false, c)
  | some x => (true, { c with cert := some x, key := if c.key = some x.key then c.key else none })

/-- `SSL_CTX_use_PrivateKey_file`. -/
def Ctx.useKey (w : Pki) (c : Ctx) (f : Path) : Bool × Ctx :=
  match (w.at f).key with
  | none => (false, c)
  | some k => match c.cert with
    | none => (true, { c with key := some k })
    | some x => if x.key = k then (true, { c with key := some k }) else (false, { c with cert := if w.drop then none else c.cert })

/-- `SSL_CTX_check_private_key`. -/
def Ctx.checkKey (c : Ctx) : Bool :=
  match c.cert, c.key with
  | some x, some k => x.key == k
  | _, _ => false

/-! ### The program -/

/-- `SSLCtx::Param` (lt_ssl.h:49-57). -/
structure Param where
  verifyPeer : Bool
  crt : Path
  key : Path
  caFile : Path
  caPath : Path
deriving DecidableEq, Repr

/-- `Param(role)` (lt_ssl.cc:55-57). -/
def Param.ofRole (client : Bool) : Param := ⟨client, "", "", "", ""⟩

/-- `crt_file` and `key_file`, as in the constructor (lt_ssl.cc:82-98) and `UseCertification` (lt_ssl.cc:158-178). -/
def certify (w : Pki) (c : Ctx) (crt key : Path) : Bool × Ctx :=
  let (ok, c1) := if crt = "" then (true, c) else c.useChain w crt
  if ok = false then (false, c1) else
  if key = "" then (true, c1) else
  let (ok2, c2) := c1.useKey w key
  if ok2 = false then (false, c2) else (c2.checkKey, c2)

/-- `SSLCtx(param)` (lt_ssl.cc:61-117). `none`: `impl_` is null. -/
def newCtx (w : Pki) (p : Param) : Option Ctx :=
  let (ok, c1) := if p.caFile = "" ∧ p.caPath = "" then (true, Ctx.new) else Ctx.new.loadLocations w (some p.caFile) (some p.caPath)
  if ok = false then none else
  let (ok2, c2) := certify w c1 p.crt p.key
  if ok2 = false then none else
  some { c2 with
    anchors := if p.verifyPeer = true ∧ p.caFile = "" ∧ p.caPath = "" then c2.anchors ++ w.system else c2.anchors,
    peer := p.verifyPeer }

/-- `UseVerifyCA` (lt_ssl.cc:140-156), which passes the name of the file where the directory's is due. -/
def useCA (w : Pki) (c : Ctx) (file path : Path) : Bool × Ctx :=
  if file = "" ∧ path = "" then (false, c) else
  c.loadLocations w (if file = "" then none else some file) (if path = "" then none else some file)

/-- A session: `SSL_new` copies mode, certificate and key; the authorities stay the context's. -/
structure Session where
  ctx : Nat
  peer : Bool
  must : Bool
  cert : Option Cert
  key : Option Key
deriving DecidableEq, Repr

/-- The contexts made (0: the default one), the sessions made, what was returned. -/
structure St where
  ctxs : List (Option Ctx)
  sessions : List Session
  results : List Bool
deriving DecidableEq, Repr

/-- `DefaultClientCtx` (lt_ssl.cc:51-53). -/
def defaultClient : Nat := 0
/-- `DefaultServerCtx` (lt_ssl.cc:47-49). -/
def defaultServer : Nat := 0

def St.init (w : Pki) : St := ⟨[newCtx w (.ofRole true)], [], []⟩

inductive Op where
  | create (p : Param)
  | mode (i : Nat) (peer must : Bool)
  | ca (i : Nat) (file path : Path)
  | cert (i : Nat) (crt key : Path)
  /-- `NewSSLSession` (lt_ssl.cc:126-130), when a connection is made (client.cc:188, ws_client.cc:104, io_service.cc:132) -/
  | session (i : Nat)
deriving DecidableEq, Repr

/-- A call on context `i`: undefined if its `impl_` is null. -/
def St.on (s : St) (i : Nat) (f : Ctx → Bool × Ctx) : Option St :=
  match s.ctxs[i]? with
  | some (some c) => some { s with ctxs := s.ctxs.set i (some (f c).2), results := s.results ++ [(f c).1] }
  | _ => none

/-- A call. `none`: undefined behaviour. -/
def step (w : Pki) (s : St) : Op → Option St
  | .create p => some { s with ctxs := s.ctxs ++ [newCtx w p] }
  | .mode i peer must => s.on i (fun c => (true, { c with peer := peer, must := must }))
  | .ca i file path => s.on i (fun c => useCA w c file path)
  | .cert i crt key => s.on i (fun c => certify w c crt key)
  | .session i => match s.ctxs[i]? with
    | some (some c) => some { s with sessions := s.sessions ++ [⟨i, c.peer, c.must, c.cert, c.key⟩] }
    | _ => none

def run (w : Pki) (s : St) : List Op → Option St
  | [] => some s
  | o :: t => (step w s o).bind (fun s' => run w s' t)

/-- The authorities of a session's context. -/
def anchors (s : St) (i : Nat) : List Auth :=
  match s.ctxs[i]? with
  | some (some c) => c.anchors
  | _ => []

/-- The certificate a session proves to own. -/
def present (x : Session) : Option Cert :=
  match x.cert, x.key with
  | some c, some k => if c.key = k then some c else none
  | _, _ => none

/-- Whether a client's session accepts a server that proves to own `c`; `host` is what the client dials (client.cc:60-75): it is not used. -/
def clientAccepts (w : Pki) (s : St) (x : Session) (_host : Host) (c : Cert) : Bool := !x.peer || (anchors s x.ctx).any (fun a => w.issued a c)

/-- Whether a server's session accepts a client. -/
def serverAccepts (w : Pki) (s : St) (x : Session) : Option Cert → Bool
  | none => !x.peer || !x.must
  | some c => !x.peer || (anchors s x.ctx).any (fun a => w.issued a c)

/-- Whether the handshake of two sessions succeeds. -/
def connect (w : Pki) (s : St) (client server : Session) (host : Host) : Bool :=
  match present server with
  | none => false
  | some c => clientAccepts w s client host c && serverAccepts w s server (if server.peer then present client else none)

/-- `GetClientSSLContext` (client.cc:34-38) of a client on which `SetSSLCtx` (client_base.h:31) was called or not; `garbage`: what the memory of `ssl_ctx_`, which
no constructor sets (client_base.h:35), held before.  `none`: undefined behaviour. -/
def clientCtx (set : Option Nat) (garbage : Nat) : Option Nat :=
  match set with
  | some i => some i
  | none => if garbage = 0 then some defaultClient else none

/-- `GetSSLContext` of a server (generic_server.h:171-174). -/
def serverCtx (set : Option Nat) : Nat := set.getD defaultServer

/-! ### What the property says -/

/-- The authorities a context is made with: those of the file and the directory given, or the system's if it verifies and none is given. -/
def Born (w : Pki) (p : Param) (a : Auth) : Prop :=
  if p.caFile = "" ∧ p.caPath = "" then p.verifyPeer = true ∧ a ∈ w.system else a ∈ (w.at p.caFile).cas ∨ a ∈ (w.at p.caPath).under

/-- The parameters of the contexts, the default one first. -/
def params (ops : List Op) : List Param :=
  .ofRole true :: ops.filterMap (fun o => match o with
    | .create p => some p
    | _ => none)

/-- The mode last set. -/
def lastMode (i : Nat) (ops : List Op) : Option (Bool × Bool) :=
  (ops.filterMap (fun o => match o with
    | .mode j peer must => if j = i then some (peer, must) else none
    | _ => none)).getLast?

/-- Whether context `i`, made with `p`, verifies. -/
def verifies (p : Param) (i : Nat) (ops : List Op) : Bool := ((lastMode i ops).map (·.1)).getD p.verifyPeer

/-- Whether context `i`, if it verifies, refuses a client without a certificate. -/
def demands (i : Nat) (ops : List Op) : Bool := ((lastMode i ops).map (·.2)).getD false

/-- The authorities context `i` was given. -/
def Trusted (w : Pki) (p : Param) (i : Nat) (ops : List Op) (a : Auth) : Prop := Born w p a ∨ ∃ f d, .ca i f d ∈ ops ∧ a ∈ (w.at f).cas

/-- The authorities, certificate and key that parameters name can be used. -/
def Usable (w : Pki) (p : Param) : Prop :=
  ((p.caFile = "" ∧ p.caPath = "") ∨ ((w.at p.caFile).cas ≠ [] ∧ p.caPath ≠ "")) ∧
  (p.crt = "" ∨ (w.at p.crt).chain ≠ none) ∧
  (p.key = "" ∨ ∃ x, (w.at p.crt).chain = some x ∧ (w.at p.key).key = some x.key)

/-! ### Proofs -/

theorem at_empty (w : Pki) : w.at "" = .missing := by simp [Pki.at]

theorem under_of_cas {e : Entry} (h : e.cas ≠ []) : e.under = [] := by
  cases e <;> simp_all [Entry.cas, Entry.under]

theorem certify_new (w : Pki) (c : Ctx) (crt key : Path) (hc : c.cert = none) (hk : c.key = none) :
    ((certify w c crt key).1 = true ↔ (crt = "" ∨ (w.at crt).chain ≠ none) ∧ (key = "" ∨ ∃ x, (w.at crt).chain = some x ∧ (w.at key).key = some x.key)) ∧
    ((certify w c crt key).1 = true → (certify w c crt key).2 = { c with cert := (w.at crt).chain, key := (w.at key).key }) := by
  obtain ⟨an, pe, mu, ce, ke⟩ := c
  simp only at hc hk
  subst hc hk
  unfold certify
  by_cases h1 : crt = ""
  · subst h1
    by_cases h2 : key = ""
    · subst h2; simp [at_empty, Entry.chain, Entry.key]
    · cases hkk : (w.at key).key with
      | none => simp [h2, Ctx.useKey, hkk, at_empty, Entry.chain]
      | some k => simp [h2, Ctx.useKey, hkk, at_empty, Entry.chain, Ctx.checkKey]
  · cases hch : (w.at crt).chain with
    | none => simp [h1, Ctx.useChain, hch]
    | some x =>
      by_cases h2 : key = ""
      · subst h2; simp [h1, Ctx.useChain, hch, at_empty, Entry.key]
      · cases hkk : (w.at key).key with
        | none => simp [h1, h2, Ctx.useChain, hch, Ctx.useKey, hkk]
        | some k =>
          by_cases hx : x.key = k
          · subst hx; simp [h1, h2, Ctx.useChain, hch, Ctx.useKey, hkk, Ctx.checkKey]
          · simp [h1, h2, Ctx.useChain, hch, Ctx.useKey, hkk, hx]
            exact fun e => hx e.symm

theorem certify_anchors (w : Pki) (c : Ctx) (crt key : Path) :
    (certify w c crt key).2.anchors = c.anchors ∧ (certify w c crt key).2.peer = c.peer ∧ (certify w c crt key).2.must = c.must := by
  unfold certify Ctx.useChain Ctx.useKey
  by_cases h1 : crt = "" <;> by_cases h2 : key = "" <;> cases hch : (w.at crt).chain <;> cases hkk : (w.at key).key <;> simp [h1, h2] <;>
    (repeat' split) <;> simp_all

/-- **C200, contexts.** A context can be used exactly if what its parameters name can, and then it has what they say. -/
theorem c200_create (w : Pki) (p : Param) :
    (newCtx w p ≠ none ↔ Usable w p) ∧
    (∀ c, newCtx w p = some c → (∀ a, a ∈ c.anchors ↔ Born w p a) ∧ c.peer = p.verifyPeer ∧ c.must = false ∧
      c.cert = (w.at p.crt).chain ∧ c.key = (w.at p.key).key) := by
  obtain ⟨vp, crt, key, cf, cp⟩ := p
  unfold newCtx Usable Born
  simp only
  by_cases h : cf = "" ∧ cp = ""
  · rw [if_pos h]
    obtain ⟨k1, k2⟩ := certify_new w Ctx.new crt key rfl rfl
    cases hc : (certify w Ctx.new crt key).1
    · have : ¬((crt = "" ∨ (w.at crt).chain ≠ none) ∧ (key = "" ∨ ∃ x, (w.at crt).chain = some x ∧ (w.at key).key = some x.key)) := by
        rw [← k1, hc]; simp
      refine ⟨?_, by simp [hc]⟩
      simp only [hc, Bool.true_eq_false, if_false, if_true, ne_eq, not_true_eq_false, false_iff]
      exact fun hh => this hh.2
    · have h2 := k2 hc
      have h1 := k1.1 hc
      refine ⟨?_, ?_⟩
      · simp only [hc, Bool.true_eq_false, if_false, ne_eq, reduceCtorEq, not_false_eq_true, true_iff]
        exact ⟨Or.inl h, h1⟩
      · intro c hcc
        simp only [hc, Bool.true_eq_false, if_false, Option.some.injEq, h2] at hcc
        subst hcc
        refine ⟨fun a => ?_, rfl, rfl, rfl, rfl⟩
        simp only [h, and_true, if_true, Ctx.new, List.nil_append, and_self]
        by_cases hv : vp = true <;> simp [hv]
  · rw [if_neg h]
    have hnot : ¬(vp = true ∧ cf = "" ∧ cp = "") := fun e => h e.2
    simp only [Ctx.loadLocations, reduceCtorEq, false_and, if_false]
    by_cases h1 : (w.at cf).cas = []
    · simp [h1, h]
    · by_cases h2 : cp = ""
      · simp [h1, h2]
        intro e; subst e; simp [at_empty, Entry.cas] at h1
      · obtain ⟨k1, k2⟩ := certify_new w { Ctx.new with anchors := (Ctx.new.anchors ++ (w.at cf).cas) ++ (w.at cp).under } crt key rfl rfl
        simp only [h1, if_false, Bool.true_eq_false, h2, if_neg hnot]
        cases hc : (certify w { Ctx.new with anchors := (Ctx.new.anchors ++ (w.at cf).cas) ++ (w.at cp).under } crt key).1
        · have : ¬((crt = "" ∨ (w.at crt).chain ≠ none) ∧ (key = "" ∨ ∃ x, (w.at crt).chain = some x ∧ (w.at key).key = some x.key)) := by
            rw [← k1, hc]; simp
          refine ⟨?_, by simp⟩
          simp only [if_true, ne_eq, not_true_eq_false, false_iff]
          exact fun hh => this hh.2
        · have h3 := k2 hc
          have h4 := k1.1 hc
          refine ⟨?_, ?_⟩
          · simp only [Bool.true_eq_false, if_false, ne_eq, reduceCtorEq, not_false_eq_true, true_iff]
            exact ⟨Or.inr ⟨h1, h2⟩, h4⟩
          · intro c hcc
            simp only [Bool.true_eq_false, if_false, Option.some.injEq, h3] at hcc
            subst hcc
            refine ⟨fun a => ?_, rfl, rfl, rfl, rfl⟩
            simp [Ctx.new, h2]

/-- What loading more authorities does. -/
theorem useCA_spec (w : Pki) (c : Ctx) (f d : Path) :
    useCA w c f d = (decide ((w.at f).cas ≠ []), { c with anchors := c.anchors ++ (w.at f).cas }) := by
  unfold useCA
  by_cases h1 : f = ""
  · subst h1
    by_cases h2 : d = ""
    · subst h2; simp [at_empty, Entry.cas]
    · simp [h2, Ctx.loadLocations, at_empty, Entry.cas]
  · by_cases h3 : (w.at f).cas = []
    · simp [h1, Ctx.loadLocations, h3]
    · by_cases h2 : d = ""
      · simp [h1, h2, Ctx.loadLocations, h3]
      · simp [h1, h2, Ctx.loadLocations, h3, under_of_cas h3]

theorem run_append (w : Pki) (s : St) (a b : List Op) : run w s (a ++ b) = (run w s a).bind (fun s' => run w s' b) := by
  induction a generalizing s with
  | nil => rfl
  | cons o t ih =>
    simp only [List.cons_append, run]
    cases step w s o with
    | none => rfl
    | some s' => exact ih s'

theorem run_snoc (w : Pki) (s : St) (a : List Op) (o : Op) : run w s (a ++ [o]) = (run w s a).bind (fun s' => step w s' o) := by
  rw [run_append]
  congr 1; funext s'
  simp only [run]
  cases step w s' o <;> rfl

/-- What holds of a context made with `p`. -/
structure Of (w : Pki) (ops : List Op) (i : Nat) (p : Param) (c : Ctx) : Prop where
  anchors : ∀ a, a ∈ c.anchors ↔ Trusted w p i ops a
  peer : c.peer = verifies p i ops
  must : c.must = demands i ops
  fit : ∀ x k, c.cert = some x → c.key = some k → x.key = k
  own : (∀ f k, .cert i f k ∉ ops) → c.cert = (w.at p.crt).chain ∧ c.key = (w.at p.key).key

/-- The context an operation is about. -/
def about : Op → Option Nat
  | .create _ => none
  | .mode i _ _ => some i
  | .ca i _ _ => some i
  | .cert i _ _ => some i
  | .session i => some i

structure Hist (w : Pki) (ops : List Op) (s : St) : Prop where
  old : ∀ o ∈ ops, ∀ i : Nat, about o = some i → i < s.ctxs.length
  len : s.ctxs.length = (params ops).length
  ctx : ∀ (i : Nat) (c : Ctx), s.ctxs[i]? = some (some c) → ∃ p, (params ops)[i]? = some p ∧ Usable w p ∧ Of w ops i p c
  null : ∀ (i : Nat), s.ctxs[i]? = some none → ∃ p, (params ops)[i]? = some p ∧ ¬Usable w p

theorem params_snoc (ops : List Op) (o : Op) : params (ops ++ [o]) = params ops ++ (match o with
    | .create p => [p]
    | _ => []) := by
  unfold params
  rw [List.filterMap_append]
  cases o <;> simp

theorem lastMode_snoc (i : Nat) (ops : List Op) (o : Op) : lastMode i (ops ++ [o]) = (match o with
    | .mode j peer must => if j = i then some (peer, must) else lastMode i ops
    | _ => lastMode i ops) := by
  unfold lastMode
  rw [List.filterMap_append]
  cases o with
  | mode j peer must =>
    by_cases h : j = i <;> simp [h]
  | _ => simp

theorem lastMode_none (i : Nat) (ops : List Op) (h : ∀ a b, .mode i a b ∉ ops) : lastMode i ops = none := by
  unfold lastMode
  rw [List.getLast?_eq_none_iff, List.filterMap_eq_nil_iff]
  intro o ho
  cases o with
  | mode j a b =>
    have : j ≠ i := fun e => h a b (e ▸ ho)
    simp [this]
  | _ => rfl

/-- An operation that is not about the context. -/
theorem Of.other {w : Pki} {ops : List Op} {i : Nat} {p : Param} {c : Ctx} (h : Of w ops i p c) (o : Op)
    (h1 : ∀ j a b, o = .mode j a b → j ≠ i) (h2 : ∀ j a b, o = .ca j a b → j ≠ i) : Of w (ops ++ [o]) i p c := by
  refine ⟨fun a => ?_, ?_, ?_, h.fit, ?_⟩
  · rw [h.anchors a]
    unfold Trusted
    constructor
    · rintro (hb | ⟨f, d, hm, ha⟩)
      · exact Or.inl hb
      · exact Or.inr ⟨f, d, by simp [hm], ha⟩
    · rintro (hb | ⟨f, d, hm, ha⟩)
      · exact Or.inl hb
      · simp only [List.mem_append, List.mem_singleton] at hm
        rcases hm with hm | hm
        · exact Or.inr ⟨f, d, hm, ha⟩
        · exact absurd rfl (h2 i f d hm.symm)
  · rw [h.peer]
    unfold verifies
    rw [lastMode_snoc]
    cases o with
    | mode j a b => simp [h1 j a b rfl]
    | _ => rfl
  · rw [h.must]
    unfold demands
    rw [lastMode_snoc]
    cases o with
    | mode j a b => simp [h1 j a b rfl]
    | _ => rfl
  · intro hn
    exact h.own (fun f k hm => hn f k (by simp [hm]))

theorem on_some {s s' : St} {i : Nat} {f : Ctx → Bool × Ctx} (h : s.on i f = some s') :
    ∃ c, s.ctxs[i]? = some (some c) ∧ s' = { s with ctxs := s.ctxs.set i (some (f c).2), results := s.results ++ [(f c).1] } := by
  unfold St.on at h
  split at h
  · rename_i c hc
    exact ⟨c, hc, by simpa using h.symm⟩
  · cases h

theorem usable_fit {w : Pki} {p : Param} {c : Ctx} (hu : Usable w p) (h1 : c.cert = (w.at p.crt).chain) (h2 : c.key = (w.at p.key).key) :
    ∀ x k, c.cert = some x → c.key = some k → x.key = k := by
  intro x k hx hk
  rw [h1] at hx; rw [h2] at hk
  rcases hu.2.2 with hh | ⟨y, hy, hyk⟩
  · rw [hh] at hk; simp [at_empty, Entry.key] at hk
  · rw [hx] at hy; cases hy
    rw [hk] at hyk; simpa using hyk.symm

/-- Certificate and key always fit. -/
theorem certify_fit (w : Pki) (c : Ctx) (f k : Path) (h : ∀ x y, c.cert = some x → c.key = some y → x.key = y) :
    ∀ x y, (certify w c f k).2.cert = some x → (certify w c f k).2.key = some y → x.key = y := by
  have h1 : ∀ c : Ctx, (∀ x y, c.cert = some x → c.key = some y → x.key = y) → ∀ f x y, (c.useChain w f).2.cert = some x → (c.useChain w f).2.key = some y → x.key = y := by
    intro c h f x y
    unfold Ctx.useChain
    cases (w.at f).chain with
    | none => exact h x y
    | some z =>
      simp only [Option.some.injEq]
      intro hz hy
      subst hz
      split at hy
      · rename_i hk; rw [hk] at hy; simpa using hy
      · cases hy
  have h2 : ∀ c : Ctx, (∀ x y, c.cert = some x → c.key = some y → x.key = y) → ∀ f x y, (c.useKey w f).2.cert = some x → (c.useKey w f).2.key = some y → x.key = y := by
    intro c h f x y
    unfold Ctx.useKey
    cases (w.at f).key with
    | none => exact h x y
    | some z =>
      cases hc : c.cert with
      | none => simp only [hc]; intro hx; cases hx
      | some v =>
        simp only
        split
        · rename_i hv
          simp only [hc, Option.some.injEq]
          intro e1 e2
          rw [← e1, ← e2]; exact hv
        · simp only
          intro hx hy
          split at hx
          · cases hx
          · exact h x y (hc.trans hx) hy
  unfold certify
  by_cases hf : f = ""
  · by_cases hk : k = ""
    · simp only [hf, hk, if_true, Bool.true_eq_false, if_false]; exact h
    · simp only [hf, hk, if_true, Bool.true_eq_false, if_false]
      split
      · exact h2 c h k
      · exact h2 c h k
  · simp only [hf, if_false]
    split
    · exact h1 c h f
    · split
      · exact h1 c h f
      · split
        · exact h2 _ (h1 c h f) k
        · exact h2 _ (h1 c h f) k

theorem hist_init (w : Pki) : Hist w [] (St.init w) := by
  refine ⟨by simp, rfl, ?_, ?_⟩
  · intro i c hc
    cases i with
    | succ i => simp [St.init] at hc
    | zero =>
      simp only [St.init, List.getElem?_cons_zero, Option.some.injEq] at hc
      obtain ⟨k1, k2⟩ := c200_create w (.ofRole true)
      obtain ⟨a1, a2, a3, a4, a5⟩ := k2 c hc
      refine ⟨.ofRole true, rfl, k1.1 (by rw [hc]; simp), ⟨fun a => ?_, by rw [a2]; rfl, by rw [a3]; rfl, usable_fit (k1.1 (by rw [hc]; simp)) a4 a5, fun _ => ⟨a4, a5⟩⟩⟩
      rw [a1 a]; simp [Trusted]
  · intro i hc
    cases i with
    | succ i => simp [St.init] at hc
    | zero =>
      simp only [St.init, List.getElem?_cons_zero, Option.some.injEq] at hc
      exact ⟨.ofRole true, rfl, fun hu => (c200_create w (.ofRole true)).1.2 hu hc⟩

/-- A call on context `i`. -/
theorem hist_on {w : Pki} {ops : List Op} {s s' : St} {i : Nat} {f : Ctx → Bool × Ctx} {o : Op} (h : Hist w ops s) (hs : s.on i f = some s')
    (ho : params (ops ++ [o]) = params ops) (h1 : ∀ j a b, o = .mode j a b → j = i) (h2 : ∀ j a b, o = .ca j a b → j = i)
    (ha : about o = some i) (hf : ∀ c p, Of w ops i p c → Of w (ops ++ [o]) i p (f c).2) : Hist w (ops ++ [o]) s' := by
  obtain ⟨c, hc, rfl⟩ := on_some hs
  have hi : i < s.ctxs.length := by
    obtain ⟨hi, _⟩ := List.getElem?_eq_some_iff.1 hc
    exact hi
  refine ⟨?_, ?_, ?_, ?_⟩
  · intro o' ho' j hj
    simp only [List.length_set]
    simp only [List.mem_append, List.mem_singleton] at ho'
    rcases ho' with ho' | rfl
    · exact h.old o' ho' j hj
    · rw [ha] at hj; simp only [Option.some.injEq] at hj; omega
  · rw [ho]; simpa using h.len
  · intro j c' hj
    rw [ho]
    by_cases e : i = j
    · subst e
      rw [List.getElem?_set_self hi] at hj
      simp only [Option.some.injEq] at hj; subst hj
      obtain ⟨p, hp, hu, hof⟩ := h.ctx i c hc
      exact ⟨p, hp, hu, hf c p hof⟩
    · rw [List.getElem?_set_ne e] at hj
      obtain ⟨p, hp, hu, hof⟩ := h.ctx j c' hj
      exact ⟨p, hp, hu, hof.other o (fun k a b e' => fun hk => e (by rw [← h1 k a b e', hk])) (fun k a b e' => fun hk => e (by rw [← h2 k a b e', hk]))⟩
  · intro j hj
    rw [ho]
    by_cases e : i = j
    · subst e
      rw [List.getElem?_set_self hi] at hj
      simp at hj
    · rw [List.getElem?_set_ne e] at hj
      exact h.null j hj

theorem hist_step (w : Pki) (ops : List Op) (s s' : St) (o : Op) (h : Hist w ops s) (hs : step w s o = some s') : Hist w (ops ++ [o]) s' := by
  cases o with
  | create p =>
    simp only [step, Option.some.injEq] at hs; subst hs
    have hpar : params (ops ++ [.create p]) = params ops ++ [p] := params_snoc ops _
    refine ⟨?_, by rw [hpar]; simp [h.len], ?_, ?_⟩
    · intro o' ho' j hj
      simp only [List.length_append, List.length_singleton]
      simp only [List.mem_append, List.mem_singleton] at ho'
      rcases ho' with ho' | rfl
      · have := h.old o' ho' j hj; omega
      · cases hj
    · intro j c hj
      rw [hpar]
      rw [List.getElem?_append] at hj
      split at hj
      · rename_i hlt
        obtain ⟨q, hq, hu, hof⟩ := h.ctx j c hj
        refine ⟨q, ?_, hu, hof.other _ (by simp) (by simp)⟩
        rw [List.getElem?_append_left (by rw [← h.len]; exact hlt)]; exact hq
      · rename_i hlt
        have hj0 : j = s.ctxs.length := by
          obtain ⟨hlt', _⟩ := List.getElem?_eq_some_iff.1 hj
          simp at hlt'; omega
        subst hj0
        simp only [Nat.sub_self, List.getElem?_cons_zero, Option.some.injEq] at hj
        obtain ⟨k1, k2⟩ := c200_create w p
        obtain ⟨a1, a2, a3, a4, a5⟩ := k2 c hj
        refine ⟨p, by rw [h.len, List.getElem?_append_right (Nat.le_refl _)]; simp, k1.1 (by rw [hj]; simp), ?_⟩
        have hab : ∀ o ∈ ops, about o ≠ some s.ctxs.length := fun o ho e => absurd (h.old o ho _ e) (by omega)
        refine ⟨fun a => ?_, ?_, ?_, usable_fit (k1.1 (by rw [hj]; simp)) a4 a5, fun _ => ⟨a4, a5⟩⟩
        · rw [a1 a]
          unfold Trusted
          constructor
          · exact Or.inl
          · rintro (hb | ⟨f, d, hm, _⟩)
            · exact hb
            · simp only [List.mem_append, List.mem_singleton, reduceCtorEq, or_false] at hm
              exact absurd rfl (hab _ hm)
        · rw [a2]
          unfold verifies
          rw [lastMode_snoc]
          simp only
          rw [lastMode_none _ _ (fun a b hm => hab _ hm rfl)]
          rfl
        · rw [a3]
          unfold demands
          rw [lastMode_snoc]
          simp only
          rw [lastMode_none _ _ (fun a b hm => hab _ hm rfl)]
          rfl
    · intro j hj
      rw [hpar]
      rw [List.getElem?_append] at hj
      split at hj
      · rename_i hlt
        obtain ⟨q, hq, hu⟩ := h.null j hj
        refine ⟨q, ?_, hu⟩
        rw [List.getElem?_append_left (by rw [← h.len]; exact hlt)]; exact hq
      · rename_i hlt
        have hj0 : j = s.ctxs.length := by
          obtain ⟨hlt', _⟩ := List.getElem?_eq_some_iff.1 hj
          simp at hlt'; omega
        subst hj0
        simp only [Nat.sub_self, List.getElem?_cons_zero, Option.some.injEq] at hj
        refine ⟨p, by rw [h.len, List.getElem?_append_right (Nat.le_refl _)]; simp, fun hu => (c200_create w p).1.2 hu hj⟩
  | mode i peer must =>
    refine hist_on h hs (by rw [params_snoc]; simp) (by intro j a b e; cases e; rfl) (by intro j a b e; cases e) rfl ?_
    intro c p hof
    refine ⟨fun a => ?_, ?_, ?_, hof.fit, fun hn => hof.own (fun f k hm => hn f k (by simp [hm]))⟩
    · rw [hof.anchors a]; simp [Trusted]
    · unfold verifies; rw [lastMode_snoc]; simp
    · unfold demands; rw [lastMode_snoc]; simp
  | ca i f d =>
    refine hist_on h hs (by rw [params_snoc]; simp) (by intro j a b e; cases e) (by intro j a b e; cases e; rfl) rfl ?_
    intro c p hof
    rw [useCA_spec]
    refine ⟨fun a => ?_, ?_, ?_, hof.fit, fun hn => hof.own (fun f k hm => hn f k (by simp [hm]))⟩
    · simp only [List.mem_append, hof.anchors a, Trusted]
      constructor
      · rintro ((hb | ⟨f', d', hm, ha⟩) | ha)
        · exact Or.inl hb
        · exact Or.inr ⟨f', d', Or.inl hm, ha⟩
        · exact Or.inr ⟨f, d, Or.inr (by simp), ha⟩
      · rintro (hb | ⟨f', d', hm | hm, ha⟩)
        · exact Or.inl (Or.inl hb)
        · exact Or.inl (Or.inr ⟨f', d', hm, ha⟩)
        · simp only [List.mem_singleton, Op.ca.injEq, true_and] at hm
          obtain ⟨rfl, rfl⟩ := hm
          exact Or.inr ha
    · unfold verifies; rw [lastMode_snoc]; exact hof.peer
    · unfold demands; rw [lastMode_snoc]; exact hof.must
  | cert i f k =>
    refine hist_on h hs (by rw [params_snoc]; simp) (by intro j a b e; cases e) (by intro j a b e; cases e) rfl ?_
    intro c p hof
    obtain ⟨e1, e2, e3⟩ := certify_anchors w c f k
    refine ⟨fun a => ?_, ?_, ?_, certify_fit w c f k hof.fit, fun hn => absurd (by simp) (hn f k)⟩
    · rw [e1, hof.anchors a]; simp [Trusted]
    · unfold verifies; rw [lastMode_snoc, e2]; exact hof.peer
    · unfold demands; rw [lastMode_snoc, e3]; exact hof.must
  | session i =>
    simp only [step] at hs
    split at hs
    · rename_i c hc
      simp only [Option.some.injEq] at hs; subst hs
      have hpar : params (ops ++ [.session i]) = params ops := by rw [params_snoc]; simp
      refine ⟨?_, by rw [hpar]; exact h.len, ?_, ?_⟩
      · intro o' ho' j hj
        simp only [List.mem_append, List.mem_singleton] at ho'
        rcases ho' with ho' | rfl
        · exact h.old o' ho' j hj
        · simp only [about, Option.some.injEq] at hj; subst hj
          exact (List.getElem?_eq_some_iff.1 hc).1
      · intro j c' hj
        rw [hpar]
        obtain ⟨p, hp, hu, hof⟩ := h.ctx j c' hj
        exact ⟨p, hp, hu, hof.other _ (by simp) (by simp)⟩
      · intro j hj
        rw [hpar]
        exact h.null j hj
    · cases hs

theorem hist_run (w : Pki) (pre ops : List Op) (s s' : St) (h : Hist w pre s) (hs : run w s ops = some s') : Hist w (pre ++ ops) s' := by
  induction ops generalizing pre s with
  | nil => simp only [run, Option.some.injEq] at hs; subst hs; simpa using h
  | cons o t ih =>
    simp only [run] at hs
    obtain ⟨x, hx, hr⟩ := Option.bind_eq_some_iff.1 hs
    have := ih (pre ++ [o]) x (hist_step w pre s x o h hx) hr
    simpa using this

theorem hist (w : Pki) (ops : List Op) (s : St) (h : run w (St.init w) ops = some s) : Hist w ops s := by
  simpa using hist_run w [] ops _ s (hist_init w) h

theorem step_sessions (w : Pki) (s s' : St) (o : Op) (h : step w s o = some s') : ∃ l, s'.sessions = s.sessions ++ l ∧ l.length = (match o with
    | .session _ => 1
    | _ => 0) := by
  cases o with
  | create p => simp only [step, Option.some.injEq] at h; subst h; exact ⟨[], by simp, rfl⟩
  | mode i a b => obtain ⟨c, _, rfl⟩ := on_some h; exact ⟨[], by simp, rfl⟩
  | ca i f d => obtain ⟨c, _, rfl⟩ := on_some h; exact ⟨[], by simp, rfl⟩
  | cert i f k => obtain ⟨c, _, rfl⟩ := on_some h; exact ⟨[], by simp, rfl⟩
  | session i =>
    simp only [step] at h
    split at h
    · simp only [Option.some.injEq] at h; subst h; exact ⟨_, rfl, rfl⟩
    · cases h

def isSession : Op → Bool
  | .session _ => true
  | _ => false

theorem run_sessions (w : Pki) (ops : List Op) (s s' : St) (h : run w s ops = some s') : ∃ l, s'.sessions = s.sessions ++ l ∧ l.length = ops.countP isSession := by
  induction ops generalizing s with
  | nil => simp only [run, Option.some.injEq] at h; subst h; exact ⟨[], by simp, rfl⟩
  | cons o t ih =>
    simp only [run] at h
    obtain ⟨x, hx, hr⟩ := Option.bind_eq_some_iff.1 h
    obtain ⟨l1, e1, n1⟩ := step_sessions w s x o hx
    obtain ⟨l2, e2, n2⟩ := ih x hr
    refine ⟨l1 ++ l2, by rw [e2, e1, List.append_assoc], ?_⟩
    rw [List.length_append, n1, n2, List.countP_cons]
    cases o <;> simp [isSession]; omega

/-- A session is what its context was when it was made, and stays. -/
theorem session_made (w : Pki) (pre post : List Op) (i : Nat) (s : St) (h : run w (St.init w) (pre ++ .session i :: post) = some s) :
    ∃ s0 c, run w (St.init w) pre = some s0 ∧ s0.ctxs[i]? = some (some c) ∧ s.sessions[pre.countP isSession]? = some ⟨i, c.peer, c.must, c.cert, c.key⟩ := by
  rw [run_append] at h
  obtain ⟨s0, h0, h1⟩ := Option.bind_eq_some_iff.1 h
  simp only [run] at h1
  obtain ⟨s1, h2, h3⟩ := Option.bind_eq_some_iff.1 h1
  simp only [step] at h2
  split at h2
  · rename_i c hc
    simp only [Option.some.injEq] at h2
    obtain ⟨l0, e0, n0⟩ := run_sessions w pre _ _ h0
    obtain ⟨l1, e1, _⟩ := run_sessions w post _ _ h3
    refine ⟨s0, c, h0, hc, ?_⟩
    rw [e1, ← h2]
    have hlen : s0.sessions.length = pre.countP isSession := by rw [e0]; simp [St.init, n0]
    rw [List.append_assoc, ← hlen, List.getElem?_append_right (Nat.le_refl _)]
    simp
  · cases h2

/-- What a session made at some time is, and whom its context trusts in the end. -/
theorem session_history (w : Pki) (pre post : List Op) (i : Nat) (s : St) (h : run w (St.init w) (pre ++ .session i :: post) = some s) :
    ∃ x p, s.sessions[pre.countP isSession]? = some x ∧ (params pre)[i]? = some p ∧ x.peer = verifies p i pre ∧ x.must = demands i pre ∧
      (∀ y k, x.cert = some y → x.key = some k → y.key = k) ∧ ∀ a, a ∈ anchors s x.ctx ↔ Trusted w p i (pre ++ .session i :: post) a := by
  obtain ⟨s0, c0, h0, hc0, hx⟩ := session_made w pre post i s h
  obtain ⟨p, hp, hu0, hof⟩ := (hist w pre s0 h0).ctx i c0 hc0
  refine ⟨_, p, hx, hp, hof.peer, hof.must, hof.fit, fun a => ?_⟩
  have hH := hist w _ s h
  have hlen : i < s.ctxs.length := hH.old (.session i) (by simp) i rfl
  have hpp : (params (pre ++ .session i :: post))[i]? = some p := by
    have : ∃ l, params (pre ++ .session i :: post) = params pre ++ l := by
      unfold params
      rw [List.filterMap_append]
      exact ⟨_, rfl⟩
    obtain ⟨l, hl⟩ := this
    rw [hl, List.getElem?_append_left (List.getElem?_eq_some_iff.1 hp).1]; exact hp
  unfold anchors
  simp only
  cases hsi : s.ctxs[i]? with
  | none => exact absurd (List.getElem?_eq_none_iff.1 hsi) (by omega)
  | some oc =>
    cases oc with
    | none =>
      obtain ⟨q, hq, hnu⟩ := hH.null i hsi
      rw [hpp] at hq; cases hq
      exact absurd hu0 hnu
    | some c1 =>
      obtain ⟨q, hq, _, hof1⟩ := hH.ctx i c1 hsi
      rw [hpp] at hq; cases hq
      exact hof1.anchors a

/-- **C200, trust.** A client's connection made after any configuration of contexts accepts a server that proves to own a certificate exactly if its context does not
verify, or one of the authorities the context was given has issued the certificate. -/
theorem c200_client (w : Pki) (pre post : List Op) (i : Nat) (s : St) (h : run w (St.init w) (pre ++ .session i :: post) = some s) :
    ∃ x p, s.sessions[pre.countP isSession]? = some x ∧ (params pre)[i]? = some p ∧
      ∀ host c, clientAccepts w s x host c = true ↔ verifies p i pre = false ∨ ∃ a, Trusted w p i (pre ++ .session i :: post) a ∧ w.issued a c = true := by
  obtain ⟨x, p, hx, hp, hv, _, _, ha⟩ := session_history w pre post i s h
  refine ⟨x, p, hx, hp, fun host c => ?_⟩
  simp [clientAccepts, hv, ha]

/-- **C200, clients' certificates.** A server's connection accepts a client that proves to own a certificate just so; a client without one unless its context verifies and the
mode last set demands one. -/
theorem c200_server (w : Pki) (pre post : List Op) (i : Nat) (s : St) (h : run w (St.init w) (pre ++ .session i :: post) = some s) :
    ∃ x p, s.sessions[pre.countP isSession]? = some x ∧ (params pre)[i]? = some p ∧
      (∀ c, serverAccepts w s x (some c) = true ↔ verifies p i pre = false ∨ ∃ a, Trusted w p i (pre ++ .session i :: post) a ∧ w.issued a c = true) ∧
      (serverAccepts w s x none = true ↔ verifies p i pre = false ∨ demands i pre = false) := by
  obtain ⟨x, p, hx, hp, hv, hm, _, ha⟩ := session_history w pre post i s h
  refine ⟨x, p, hx, hp, fun c => ?_, ?_⟩
  · simp [serverAccepts, hv, ha]
  · simp [serverAccepts, hv, hm]

/-- **C200, no mismatch.** Certificate and key of a connection fit, so what it has of both it proves to own. -/
theorem c200_fit (w : Pki) (pre post : List Op) (i : Nat) (s : St) (h : run w (St.init w) (pre ++ .session i :: post) = some s) :
    ∃ x, s.sessions[pre.countP isSession]? = some x ∧ present x = if x.key = none then none else x.cert := by
  obtain ⟨x, p, hx, _, _, _, hf, _⟩ := session_history w pre post i s h
  refine ⟨x, hx, ?_⟩
  unfold present
  cases hc : x.cert with
  | none => simp
  | some c =>
    cases hk : x.key with
    | none => simp
    | some k => simp [hf c k hc hk]

/-- **C200, certificates.** A certificate and a key are taken exactly if the files have them and they fit. -/
theorem c200_certificate (w : Pki) (c : Ctx) (f k : Path) (hf : f ≠ "") (hk : k ≠ "") :
    ((certify w c f k).1 = true ↔ ∃ x, (w.at f).chain = some x ∧ (w.at k).key = some x.key) ∧
    ((certify w c f k).1 = true → (certify w c f k).2.cert = (w.at f).chain ∧ (certify w c f k).2.key = (w.at k).key) := by
  unfold certify
  cases hch : (w.at f).chain with
  | none => simp [hf, Ctx.useChain, hch]
  | some x =>
    cases hkk : (w.at k).key with
    | none => simp [hf, hk, Ctx.useChain, hch, Ctx.useKey, hkk]
    | some y =>
      by_cases hx : x.key = y
      · subst hx; simp [hf, hk, Ctx.useChain, hch, Ctx.useKey, hkk, Ctx.checkKey]
      · simp [hf, hk, Ctx.useChain, hch, Ctx.useKey, hkk, hx]
        exact fun e => hx e.symm

/-- **C200, servers.** A connection of a context made with a certificate and its key, and given no other, proves to own this certificate; without, none. -/
theorem c200_present (w : Pki) (pre post : List Op) (i : Nat) (s : St) (h : run w (St.init w) (pre ++ .session i :: post) = some s)
    (hn : ∀ f k, .cert i f k ∉ pre) :
    ∃ x p, s.sessions[pre.countP isSession]? = some x ∧ (params pre)[i]? = some p ∧ x.peer = verifies p i pre ∧
      present x = if p.crt = "" ∨ p.key = "" then none else (w.at p.crt).chain := by
  obtain ⟨s0, c0, h0, hc0, hx⟩ := session_made w pre post i s h
  obtain ⟨p, hp, hu, hof⟩ := (hist w pre s0 h0).ctx i c0 hc0
  refine ⟨_, p, hx, hp, hof.peer, ?_⟩
  obtain ⟨e1, e2⟩ := hof.own hn
  unfold present
  simp only [e1, e2]
  by_cases hcr : p.crt = ""
  · simp [hcr, at_empty, Entry.chain]
  · by_cases hke : p.key = ""
    · simp only [hke, at_empty, Entry.key, or_true, if_true]
      split
      · rename_i hh; cases hh
      · rfl
    · rw [if_neg (by simp [hcr, hke])]
      obtain ⟨_, _, hk⟩ := hu
      rcases hk with hk | ⟨y, hy, hky⟩
      · exact absurd hk hke
      · simp [hy, hky]

/-- **C200, connections.** A server that does not verify and owns a certificate, and a client: they connect exactly if the client accepts it. -/
theorem c200_connect (w : Pki) (pre post : List Op) (i : Nat) (s : St) (h : run w (St.init w) (pre ++ .session i :: post) = some s)
    (y : Session) (c : Cert) (hy : present y = some c) (hv : y.peer = false) :
    ∃ x p, s.sessions[pre.countP isSession]? = some x ∧ (params pre)[i]? = some p ∧
      ∀ host, connect w s x y host = true ↔ verifies p i pre = false ∨ ∃ a, Trusted w p i (pre ++ .session i :: post) a ∧ w.issued a c = true := by
  obtain ⟨x, p, hx, hp, hh⟩ := c200_client w pre post i s h
  refine ⟨x, p, hx, hp, fun host => ?_⟩
  rw [← hh host c]
  simp [connect, hy, hv, serverAccepts]

/-- The default context can always be used. -/
theorem default_usable (w : Pki) : Usable w (.ofRole true) := ⟨Or.inl ⟨rfl, rfl⟩, Or.inl rfl, Or.inl rfl⟩

/-- **C200, the default.** A connection of a client left to the default context, which nobody configured, accepts exactly what the system's authorities issued. -/
theorem c200_default (w : Pki) (pre post : List Op) (s : St) (h : run w (St.init w) (pre ++ .session defaultClient :: post) = some s)
    (h1 : ∀ a b, .mode defaultClient a b ∉ pre) (h2 : ∀ f d, .ca defaultClient f d ∉ pre ++ .session defaultClient :: post) :
    ∃ x, s.sessions[pre.countP isSession]? = some x ∧ ∀ host c, clientAccepts w s x host c = true ↔ ∃ a ∈ w.system, w.issued a c = true := by
  obtain ⟨x, p, hx, hp, hh⟩ := c200_client w pre post _ s h
  have : p = .ofRole true := by simpa [params, defaultClient] using hp.symm
  subst this
  refine ⟨x, hx, fun host c => ?_⟩
  rw [hh host c]
  have hv : verifies (.ofRole true) defaultClient pre = true := by
    unfold verifies
    rw [lastMode_none _ _ h1]; rfl
  rw [hv]
  constructor
  · rintro (hb | ⟨a, ha, hi⟩)
    · cases hb
    · refine ⟨a, ?_, hi⟩
      rcases ha with ha | ⟨f, d, hm, _⟩
      · simpa [Born, Param.ofRole] using ha
      · exact absurd hm (h2 f d)
  · rintro ⟨a, ha, hi⟩
    exact Or.inr ⟨a, Or.inl (by simpa [Born, Param.ofRole] using ha), hi⟩

/-! ### Violations -/

/-- **C199 violation.** A client never checks that the certificate is for the host it dials: what it accepts for one host it accepts for every other. -/
theorem c199_host_violated (w : Pki) (s : St) (x : Session) (c : Cert) (host other : Host) (_own : host ∈ c.names) (_foreign : other ∉ c.names)
    (h : clientAccepts w s x host c = true) : clientAccepts w s x other c = true := h

/-- **C199 violation.** Parameters that name a file of authorities or a directory of them, but not both, leave the context null (the other, empty name is passed
and refused, lt_ssl.cc:73-81), whatever the file holds; the constructor does not report it and the first connection is undefined behaviour. -/
theorem c199_ca_alone_violated (w : Pki) (p : Param) (hp : (p.caFile = "" ∧ p.caPath ≠ "") ∨ (p.caFile ≠ "" ∧ p.caPath = "")) (ops : List Op) (s : St)
    (h : run w (St.init w) ops = some s) : run w (St.init w) (ops ++ [.create p, .session s.ctxs.length]) = none := by
  have hn : newCtx w p = none := by
    cases hc : newCtx w p with
    | none => rfl
    | some c =>
      have := (c200_create w p).1.1 (by rw [hc]; simp)
      rcases this.1 with hu | hu
      · rcases hp with hp | hp
        · exact absurd hu.2 hp.2
        · exact absurd hu.1 hp.1
      · rcases hp with hp | hp
        · rw [hp.1] at hu; exact absurd (by simp [at_empty, Entry.cas]) hu.1
        · exact absurd hp.2 hu.2
  rw [run_append, h]
  simp [run, step, hn]

/-- **C199 violation.** The same with a certificate or key that cannot be loaded or do not fit: nothing is reported, and the first connection is undefined
behaviour (lt_ssl.cc:114-116). -/
theorem c199_unusable_violated (w : Pki) (p : Param) (hp : ¬Usable w p) (ops : List Op) (s : St)
    (h : run w (St.init w) ops = some s) : (run w (St.init w) (ops ++ [.create p])).isSome = true ∧
      run w (St.init w) (ops ++ [.create p, .session s.ctxs.length]) = none := by
  have hn : newCtx w p = none := by
    cases hc : newCtx w p with
    | none => rfl
    | some c => exact absurd ((c200_create w p).1.1 (by rw [hc]; simp)) hp
  constructor
  · rw [run_append, h]; simp [run, step]
  · rw [run_append, h]; simp [run, step, hn]

/-- **C199 violation.** `UseVerifyCA` ignores the directory it is given (lt_ssl.cc:146): alone it is refused, and with a file only the file counts. -/
theorem c199_path_violated (w : Pki) (c : Ctx) (f d : Path) :
    useCA w c "" d = (false, c) ∧ useCA w c f d = useCA w c f "" := by
  constructor
  · rw [useCA_spec]; simp [at_empty, Entry.cas]
  · rw [useCA_spec, useCA_spec]

/-- **C199 violation.** A client's context can be made to trust an authority of one's own only in addition to the system's: after every configuration of contexts, one
made for clients accepts what the system's authorities issued. -/
theorem c199_system_violated (w : Pki) (pre post : List Op) (i : Nat) (s : St) (h : run w (St.init w) (pre ++ .session i :: post) = some s)
    (hp : (params pre)[i]? = some (.ofRole true)) (c : Cert) (a : Auth) (ha : a ∈ w.system) (hi : w.issued a c = true) :
    ∃ x, s.sessions[pre.countP isSession]? = some x ∧ ∀ host, clientAccepts w s x host c = true := by
  obtain ⟨x, p, hx, hp', hh⟩ := c200_client w pre post i s h
  rw [hp] at hp'; cases hp'
  refine ⟨x, hx, fun host => (hh host c).2 (Or.inr ⟨a, Or.inl ?_, hi⟩)⟩
  simpa [Born, Param.ofRole] using ha

/-- **C199 violation.** The default context of servers is that of clients (lt_ssl.cc:47-49): a program that tells its server not to ask clients for certificates has its
clients accept every certificate. -/
theorem c199_shared_violated (w : Pki) (pre post : List Op) (must : Bool) (s : St)
    (h : run w (St.init w) (pre ++ [.mode defaultServer false must] ++ .session defaultClient :: post) = some s) :
    ∃ x, s.sessions[(pre ++ [Op.mode defaultServer false must]).countP isSession]? = some x ∧ ∀ host c, clientAccepts w s x host c = true := by
  obtain ⟨x, p, hx, hp, hh⟩ := c200_client w (pre ++ [.mode defaultServer false must]) post _ s h
  refine ⟨x, hx, fun host c => (hh host c).2 (Or.inl ?_)⟩
  unfold verifies
  rw [lastMode_snoc]
  simp [defaultServer, defaultClient]

/-- **C199 violation.** A server left to the default context has no certificate and serves nobody. -/
theorem c199_default_server_violated (w : Pki) (pre post : List Op) (s : St) (h : run w (St.init w) (pre ++ .session (serverCtx none) :: post) = some s)
    (hn : ∀ f k, .cert defaultServer f k ∉ pre) :
    ∃ y, s.sessions[pre.countP isSession]? = some y ∧ ∀ x host, connect w s x y host = false := by
  obtain ⟨y, p, hy, hp, _, hpr⟩ := c200_present w pre post _ s h hn
  have : p = .ofRole true := by simpa [params, serverCtx, defaultServer] using hp.symm
  subst this
  refine ⟨y, hy, fun x host => ?_⟩
  have : present y = none := by simpa [Param.ofRole] using hpr
  simp [connect, this]

/-- **C199 violation.** A client on which `SetSSLCtx` was never called goes by a pointer no constructor sets (client_base.h:35): unless the memory happened to be zero,
its first connection is undefined behaviour. -/
theorem c199_garbage_violated (garbage : Nat) (h : garbage ≠ 0) : clientCtx none garbage = none := by simp [clientCtx, h]

/-! ### Examples -/

/-- Two authorities: 0 is the system's, 1 one's own, which issued the server's certificate. -/
def exCert : Cert := ⟨7, 5, ["example.org"]⟩
def exPki : Pki := ⟨fun p => if p = "ca.pem" then .file [1] none none else if p = "certs" then .dir [2] else if p = "srv.pem" then .file [] (some exCert) (some 5) else .missing,
  [0], fun a c => a == 1 && c.id == 7, false⟩
def exOps : List Op := [.create ⟨false, "srv.pem", "srv.pem", "", ""⟩, .session 1, .create (.ofRole true), .ca 2 "ca.pem" "", .session 2, .session 0]

theorem w_c200 : ((run exPki (St.init exPki) exOps).map (fun s => (s.results, s.sessions.length,
    connect exPki s (s.sessions.getD 1 ⟨0, true, true, none, none⟩) (s.sessions.getD 0 ⟨0, true, true, none, none⟩) "example.org",
    connect exPki s (s.sessions.getD 1 ⟨0, true, true, none, none⟩) (s.sessions.getD 0 ⟨0, true, true, none, none⟩) "elsewhere.net",
    connect exPki s (s.sessions.getD 2 ⟨0, true, true, none, none⟩) (s.sessions.getD 0 ⟨0, true, true, none, none⟩) "example.org"))) = some ([true], 3, true, true, false) := by
  decide +kernel

/-- A context with authorities from a file and a directory, and one from the file alone. -/
theorem w_c200_create : (newCtx exPki ⟨true, "", "", "ca.pem", "certs"⟩).map (fun c => (c.anchors, c.peer)) = some ([1, 2], true) ∧
    newCtx exPki ⟨true, "", "", "ca.pem", ""⟩ = none := by decide +kernel

end Ltio.Net.TlsTrust
