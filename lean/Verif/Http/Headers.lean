import Verif.Text.Split
import Mathlib.Data.List.Induction
/-
Model of the header map of `HttpMessage` (net_io/codec/http/http_message.cc:35-93).
`std::map` is an association list here; the order of its entries (by key in the code) plays no
role in these operations.
-/
namespace Ltio.Http
open Ltio.Text

def nul : Char := Char.ofNat 0

/-- `StrUtil::ToLower(std::string&)` (str_utils.cc:68-71): stops at the first NUL character. -/
def toLower : Str → Str
  | [] => []
  | c :: t => if c = nul then c :: t else c.toLower :: toLower t

abbrev Headers := List (Str × Str)

/-- `headers_.insert`: keeps an existing entry. -/
def insertKey (h : Headers) (k v : Str) : Headers :=
  if h.any (fun p => p.1 == k) then h else h ++ [(k, v)]

/-- `InsertHeader(const std::string&, const std::string&)` and the pair overload
(http_message.cc:54-71). -/
def insertHeader (h : Headers) (k v : Str) : Headers :=
  if k = [] then h else insertKey h (toLower k) v

/-- `HasHeader` (http_message.cc:35-45). -/
def hasHeader (h : Headers) (f : Str) : Bool := h.any (fun p => p.1 == toLower f)

/-- `GetHeader` (http_message.cc:73-81): the empty string if absent. -/
def getHeader (h : Headers) (f : Str) : Str :=
  match h.find? (fun p => p.1 == toLower f) with
  | some p => p.2
  | none => []

/-- `RemoveHeader` (http_message.cc:83-87): whether something was erased, and the rest. -/
def removeHeader (h : Headers) (f : Str) : Bool × Headers :=
  (h.any (fun p => p.1 == toLower f), h.filter (fun p => !(p.1 == toLower f)))

inductive Op where
  | insert (k v : Str)
  | remove (k : Str)
deriving DecidableEq, Repr

def apply (h : Headers) : Op → Headers
  | .insert k v => insertHeader h k v
  | .remove k => (removeHeader h k).2

def run (ops : List Op) : Headers := ops.foldl apply []

/-! ### Specification -/

/-- Same name up to ASCII case. -/
def sameName (a b : Str) : Bool := a.map Char.toLower == b.map Char.toLower

/-- What a history says about one name: the first value inserted since the last removal. -/
def expected (f : Str) (ops : List Op) : Option Str :=
  ops.foldl (fun cur op => match op with
    | .insert k v => if sameName k f then (match cur with | none => some v | some w => some w) else cur
    | .remove k => if sameName k f then none else cur) none

/-- The name an operation is about. -/
def Op.name : Op → Str
  | .insert k _ => k
  | .remove k => k

/-- No NUL characters in the names used. -/
def Plain (ops : List Op) : Prop := ∀ op ∈ ops, nul ∉ op.name

/-! ### Proofs -/

theorem toLower_eq : ∀ (s : Str), nul ∉ s → toLower s = s.map Char.toLower := by
  intro s
  induction s with
  | nil => intro _; rfl
  | cons c t ih =>
    intro h
    simp only [List.mem_cons, not_or] at h
    unfold toLower
    rw [if_neg (fun e => h.1 e.symm), ih h.2]
    rfl

/-- What the map holds under a key. -/
def lookup (h : Headers) (k : Str) : Option Str := (h.find? (fun p => p.1 == k)).map Prod.snd

theorem any_eq_lookup (h : Headers) (k : Str) :
    h.any (fun p => p.1 == k) = (lookup h k).isSome := by
  induction h with
  | nil => rfl
  | cons p h ih =>
    unfold lookup at *
    rw [List.any_cons, List.find?_cons]
    cases hp : (p.1 == k) with
    | true => simp
    | false => simpa using ih

theorem lookup_insertKey (h : Headers) (k v k' : Str) :
    lookup (insertKey h k v) k' =
      if k = k' then (match lookup h k' with | none => some v | some w => some w) else lookup h k' := by
  unfold insertKey
  rw [any_eq_lookup]
  by_cases hk : k = k'
  · subst hk
    rw [if_pos rfl]
    cases hl : lookup h k with
    | some w => simp [hl]
    | none =>
      simp only [Option.isSome_none, Bool.false_eq_true, if_false]
      unfold lookup at hl ⊢
      rw [List.find?_append]
      simp only [Option.map_eq_none_iff] at hl
      rw [hl]
      simp
  · rw [if_neg hk]
    split
    · rfl
    · unfold lookup
      rw [List.find?_append]
      simp [hk]

theorem lookup_remove (h : Headers) (k k' : Str) :
    lookup (h.filter (fun p => !(p.1 == k))) k' = if k = k' then none else lookup h k' := by
  unfold lookup
  induction h with
  | nil => simp
  | cons p h ih =>
    rw [List.filter_cons]
    by_cases hk : k = k'
    · subst hk
      rw [if_pos rfl] at ih ⊢
      by_cases hp : p.1 = k
      · simp [hp]
      · have hp' : (p.1 == k) = false := by simpa using hp
        rw [hp']
        simp only [Bool.not_false, if_true, List.find?_cons, hp']
        exact ih
    · rw [if_neg hk] at ih ⊢
      by_cases hp : p.1 = k
      · have hp' : (p.1 == k') = false := by rw [hp]; simpa using hk
        simp only [hp, beq_self_eq_true, Bool.not_true, Bool.false_eq_true, if_false]
        rw [ih, List.find?_cons, hp']
      · have : (!(p.1 == k)) = true := by simpa using hp
        rw [this]
        simp only [if_true, List.find?_cons]
        cases hq : (p.1 == k') with
        | true => rfl
        | false => exact ih

theorem lookup_expected (f : Str) (hfe : f ≠ []) : ∀ (ops : List Op), Plain ops →
    lookup (run ops) (f.map Char.toLower) = expected f ops := by
  intro ops
  induction ops using List.reverseRecOn with
  | nil => intro _; rfl
  | append_singleton ops op ih =>
    intro hp
    have h1 : Plain ops := fun o ho => hp o (by simp [ho])
    have h2 : nul ∉ op.name := hp op (by simp)
    unfold run expected
    rw [List.foldl_append, List.foldl_append]
    simp only [List.foldl_cons, List.foldl_nil]
    have ih' := ih h1
    unfold run expected at ih'
    rw [← ih']
    have hsame : ∀ k, (sameName k f = true) ↔ k.map Char.toLower = f.map Char.toLower := by
      intro k; unfold sameName; simp
    cases op with
    | insert k v =>
      have hk : nul ∉ k := h2
      unfold apply insertHeader
      simp only
      by_cases hke : k = []
      · rw [if_pos hke, if_neg]
        rw [hsame, hke]
        intro e
        apply hfe
        simpa using e.symm
      · rw [if_neg hke, toLower_eq k hk, lookup_insertKey]
        by_cases hkf : k.map Char.toLower = f.map Char.toLower
        · rw [if_pos hkf, if_pos ((hsame k).2 hkf)]
        · rw [if_neg hkf, if_neg (fun e => hkf ((hsame k).1 e))]
    | remove k =>
      have hk : nul ∉ k := h2
      unfold apply removeHeader
      simp only
      rw [toLower_eq k hk, lookup_remove]
      by_cases hkf : k.map Char.toLower = f.map Char.toLower
      · rw [if_pos hkf, if_pos ((hsame k).2 hkf)]
      · rw [if_neg hkf, if_neg (fun e => hkf ((hsame k).1 e))]

/-- **C30: header lookup.** After any sequence of insertions and removals, for any capitalisation
of any (non-empty, NUL-free) name: has, get and remove all see the first value inserted since the
last removal. -/
theorem c30_lookup_partial (ops : List Op) (hp : Plain ops) (f : Str) (hf : nul ∉ f) (hfe : f ≠ []) :
    hasHeader (run ops) f = (expected f ops).isSome ∧
    getHeader (run ops) f = (expected f ops).getD [] ∧
    (removeHeader (run ops) f).1 = (expected f ops).isSome := by
  have h := lookup_expected f hfe ops hp
  have ha : (run ops).any (fun p => p.1 == toLower f) = (expected f ops).isSome := by
    rw [toLower_eq f hf, any_eq_lookup, h]
  refine ⟨ha, ?_, ha⟩
  unfold getHeader
  rw [toLower_eq f hf]
  rw [← h]
  unfold lookup
  cases (run ops).find? (fun p => p.1 == f.map Char.toLower) <;> rfl

/-- **C30, case**: capitalisation never matters. -/
theorem c30_case_insensitive_partial (ops : List Op) (f g : Str) (hf : nul ∉ f) (hg : nul ∉ g)
    (h : sameName f g = true) :
    hasHeader (run ops) f = hasHeader (run ops) g ∧ getHeader (run ops) f = getHeader (run ops) g ∧
    removeHeader (run ops) f = removeHeader (run ops) g := by
  have e : toLower f = toLower g := by
    rw [toLower_eq f hf, toLower_eq g hg]
    simpa [sameName] using h
  unfold hasHeader getHeader removeHeader
  rw [e]
  exact ⟨rfl, rfl, rfl⟩

/-- **C30 violated for names containing NUL**: lower-casing stops there. -/
theorem c30_nul_violated (v : Str) :
    sameName [nul, 'A'] [nul, 'a'] = true ∧
    hasHeader (run [.insert [nul, 'A'] v]) [nul, 'a'] = false := by
  refine ⟨by decide, ?_⟩
  simp [run, apply, insertHeader, insertKey, hasHeader, toLower]

example : Plain [.insert "Host".toList "a".toList, .insert "HOST".toList "b".toList,
    .remove "hosT".toList, .insert "host".toList "c".toList] := by unfold Plain; decide
example : getHeader (run [.insert "Host".toList "a".toList, .insert "HOST".toList "b".toList])
    "hOst".toList = "a".toList := by decide

end Ltio.Http
