import Verif.Inverted.Model
import Mathlib.Data.List.Basic
import Mathlib.Data.List.Perm.Basic
/-
Model of how expressions and documents of the inverted indexer are written to JSON and read back
(components/inverted_indexer/expression.cc:7-80, expression.h).  nlohmann::json itself is modelled by its contract: a value is a tree; `value`
of something that is not an object and `get_to` of a wrong type throw; `operator[]` of a constant object with a missing key is
undefined.  The texts (parsing, dumping) are not modelled.
-/
namespace Ltio.Inv.Json
open Ltio.Text

/-- A JSON value.  Numbers: an integer (nlohmann stores -2^63 .. 2^64-1), or a floating-point number given by its integral part. -/
inductive J where
  | null
  | bool (b : Bool)
  | int (n : Int)
  | float (trunc : Int)
  | str (s : Str)
  | arr (l : List J)
  | obj (l : List (Str × J))

/-- `Expression` (expression.h:31-50) with its valid flag. -/
structure Ex where
  field : Str
  exclude : Bool
  values : List Str
  valid : Bool
deriving DecidableEq, Repr

/-- `Document` (expression.h:54-67); the order of the map is that of insertion here. -/
structure Dc where
  id : Int
  conds : List (Str × Ex)
  valid : Bool
deriving DecidableEq, Repr

/-- A new expression, a new document. -/
def Ex.new : Ex := ⟨[], false, [], true⟩
def Dc.new : Dc := ⟨-1, [], true⟩

/-- `Document::AddExpression` (expression.cc:36-38): whether it was inserted. -/
def Dc.add (d : Dc) (e : Ex) : Bool × Dc :=
  if d.conds.any (fun p => p.1 == e.field) then (false, d) else (true, { d with conds := d.conds ++ [(e.field, e)] })

def kField : Str := "field".toList
def kExcl : Str := "excl".toList
def kExps : Str := "exps".toList
def kDoc : Str := "doc".toList
def kCond : Str := "cond".toList

/-- `to_json(Json&, const Expression&)` (expression.cc:7-11). -/
def toExpr (e : Ex) : J := .obj [(kExps, .arr (e.values.map J.str)), (kField, .str e.field), (kExcl, .bool e.exclude)]

/-- `to_json(Json&, const Document&)` (expression.cc:44-52), with the conditions in the order in which the map is walked: without conditions
nothing is pushed and the value stays null. -/
def toDoc (d : Dc) (order : List (Str × Ex)) : J :=
  .obj [(kDoc, .int d.id), (kCond, if order = [] then .null else .arr (order.map (fun p => toExpr p.2)))]

/-- `get_to(std::vector<std::string>&)` of an array: `none` throws. -/
def strings : List J → Option (List Str)
  | [] => some []
  | .str s :: t => (strings t).map (fun r => s :: r)
  | _ :: _ => none

/-- `from_json(const Json&, Expression&)` (expression.cc:13-34) for a new expression; `none`: undefined behaviour (`j["field"]`, a constant object
without that key). -/
def fromExpr : J → Option Ex
  | .obj l =>
    match l.lookup kField with
    | none => none
    | some (.str f) =>
      if f = [] then some { Ex.new with valid := false }
      else
        match (l.lookup kExcl).getD .null, (l.lookup kExps).getD .null with
        | .bool b, .arr a =>
          match strings a with
          | some vs => some ⟨f, b, vs, true⟩
          | none => some ⟨f, b, [], false⟩
        | _, _ => some ⟨f, false, [], false⟩
    | some _ => some { Ex.new with valid := false }
  | _ => some { Ex.new with valid := false }

/-- `static_cast<int64_t>`. -/
def toI64 (n : Int) : Int := (n + 2 ^ 63) % 2 ^ 64 - 2 ^ 63

/-- `get<int64_t>()`: `none` throws. -/
def getI64 : J → Option Int
  | .int n => some (toI64 n)
  | .float t => some t
  | _ => none

/-- The loop over the conditions (expression.cc:66-73). -/
def addAll (d : Dc) : List J → Option Dc
  | [] => some { d with valid := true }
  | j :: t =>
    match fromExpr j with
    | none => none
    | some e =>
      if e.valid = false then some { d with valid := false }
      else if (d.add e).1 = false then some { d with valid := false }
      else addAll (d.add e).2 t

/-- `from_json(const Json&, Document&)` (expression.cc:54-79) for a new document. -/
def fromDoc : J → Option Dc
  | .obj l =>
    match getI64 ((l.lookup kDoc).getD .null) with
    | none => some { Dc.new with valid := false }
    | some i =>
      match (l.lookup kCond).getD .null with
      | .arr a => addAll { Dc.new with id := i } a
      | _ => some { Dc.new with id := i, valid := false }
  | _ => some { Dc.new with valid := false }

/-! ### Specification -/

/-- A JSON value that describes an expression. -/
def DescribesEx (j : J) (e : Ex) : Prop :=
  ∃ l, j = .obj l ∧ l.lookup kField = some (.str e.field) ∧ l.lookup kExcl = some (.bool e.exclude) ∧
    l.lookup kExps = some (.arr (e.values.map J.str)) ∧ e.field ≠ [] ∧ e.valid = true

/-- A JSON value that describes a document: its id and one expression per condition, on different fields. -/
def Describes (j : J) (d : Dc) : Prop :=
  ∃ l n a, j = .obj l ∧ l.lookup kDoc = some n ∧ getI64 n = some d.id ∧ l.lookup kCond = some (.arr a) ∧
    List.Forall₂ (fun x (p : Str × Ex) => DescribesEx x p.2 ∧ p.1 = p.2.field) a d.conds ∧ (d.conds.map Prod.fst).Nodup ∧ d.valid = true

/-! ### Proofs -/

theorem strings_map (vs : List Str) : strings (vs.map J.str) = some vs := by
  induction vs with
  | nil => rfl
  | cons v t ih => simp [strings, ih]

theorem strings_some {a : List J} {vs : List Str} (h : strings a = some vs) : a = vs.map J.str := by
  induction a generalizing vs with
  | nil => simp only [strings, Option.some.injEq] at h; subst h; rfl
  | cons j t ih =>
    cases j <;> simp only [strings] at h <;> try (simp at h; done)
    cases ht : strings t with
    | none => rw [ht] at h; simp at h
    | some r =>
      rw [ht] at h
      simp only [Option.map_some, Option.some.injEq] at h
      subst h
      rw [ih ht]; rfl

/-- C166: an expression is read as valid exactly from JSON that describes it. -/
theorem c166_expr_exact (j : J) (e : Ex) : (fromExpr j = some e ∧ e.valid = true) ↔ DescribesEx j e := by
  constructor
  · rintro ⟨h, hv⟩
    cases j <;> simp only [fromExpr] at h <;> try (simp only [Option.some.injEq] at h; subst h; simp at hv; done)
    rename_i l
    cases hf : l.lookup kField with
    | none => rw [hf] at h; simp at h
    | some f =>
      rw [hf] at h
      cases f <;> simp only at h <;> try (simp only [Option.some.injEq] at h; subst h; simp at hv; done)
      rename_i f
      by_cases hfe : f = []
      · rw [if_pos hfe] at h; simp only [Option.some.injEq] at h; subst h; simp at hv
      · rw [if_neg hfe] at h
        split at h
        · rename_i b a hb ha
          cases hs : strings a with
          | none => rw [hs] at h; simp only [Option.some.injEq] at h; subst h; simp at hv
          | some vs =>
            rw [hs] at h
            simp only [Option.some.injEq] at h
            subst h
            refine ⟨l, rfl, hf, ?_, ?_, hfe, rfl⟩
            · cases hx : l.lookup kExcl with
              | none => rw [hx] at hb; simp at hb
              | some x => rw [hx] at hb; simp only [Option.getD_some] at hb; rw [hb]
            · cases hx : l.lookup kExps with
              | none => rw [hx] at ha; simp at ha
              | some x => rw [hx] at ha; simp only [Option.getD_some] at ha; rw [ha, strings_some hs]
        · simp only [Option.some.injEq] at h; subst h; simp at hv
  · rintro ⟨l, rfl, h1, h2, h3, h4, h5⟩
    refine ⟨?_, h5⟩
    simp only [fromExpr]
    rw [h1, h2, h3]
    simp only
    rw [if_neg h4]
    simp only [Option.getD_some]
    rw [strings_map]
    cases e
    simp only at h5
    subst h5
    rfl

theorem toExpr_describes (e : Ex) (hf : e.field ≠ []) (hv : e.valid = true) : DescribesEx (toExpr e) e :=
  ⟨_, rfl, rfl, rfl, rfl, hf, hv⟩

/-- C166: an expression that is written is read back unchanged. -/
theorem c166_expr_roundtrip (e : Ex) (hf : e.field ≠ []) (hv : e.valid = true) : fromExpr (toExpr e) = some e :=
  ((c166_expr_exact _ _).2 (toExpr_describes e hf hv)).1

/-- What the loop accepts. -/
theorem addAll_exact (d d' : Dc) (a : List J) (hn : (d.conds.map Prod.fst).Nodup) :
    (addAll d a = some d' ∧ d'.valid = true) ↔
    ∃ ps, d'.id = d.id ∧ d'.conds = d.conds ++ ps ∧ d'.valid = true ∧
      List.Forall₂ (fun x (p : Str × Ex) => DescribesEx x p.2 ∧ p.1 = p.2.field) a ps ∧ (d'.conds.map Prod.fst).Nodup := by
  induction a generalizing d with
  | nil =>
    constructor
    · rintro ⟨h, hv⟩
      simp only [addAll, Option.some.injEq] at h
      subst h
      exact ⟨[], rfl, by simp, rfl, List.Forall₂.nil, hn⟩
    · rintro ⟨ps, h1, h2, h3, h4, h5⟩
      cases h4
      refine ⟨?_, h3⟩
      simp only [addAll, Option.some.injEq]
      cases d; cases d'
      simp_all
  | cons j t ih =>
    constructor
    · rintro ⟨h, hv⟩
      simp only [addAll] at h
      cases he : fromExpr j with
      | none => rw [he] at h; simp at h
      | some e =>
        rw [he] at h
        simp only at h
        by_cases hev : e.valid = false
        · rw [if_pos hev] at h; simp only [Option.some.injEq] at h; subst h; simp at hv
        · rw [if_neg hev] at h
          by_cases hadd : (d.add e).1 = false
          · rw [if_pos hadd] at h; simp only [Option.some.injEq] at h; subst h; simp at hv
          · rw [if_neg hadd] at h
            have hev' : e.valid = true := by simpa using hev
            unfold Dc.add at h hadd
            by_cases hany : d.conds.any (fun p => p.1 == e.field)
            · rw [if_pos hany] at hadd; exact absurd rfl hadd
            · rw [if_neg hany] at h
              simp only at h
              have hnot : e.field ∉ d.conds.map Prod.fst := by
                intro hm
                obtain ⟨p, hp, hpe⟩ := List.mem_map.1 hm
                exact hany (List.any_eq_true.2 ⟨p, hp, by simp [hpe]⟩)
              have hn' : (({ d with conds := d.conds ++ [(e.field, e)] } : Dc).conds.map Prod.fst).Nodup := by
                simp only [List.map_append, List.map_cons, List.map_nil]
                rw [List.nodup_append]
                exact ⟨hn, by simp, fun x hx y hy hxy => by simp at hy; subst hy; subst hxy; exact hnot hx⟩
              obtain ⟨ps, h1, h2, h3, h4, h5⟩ := (ih _ hn').1 ⟨h, hv⟩
              exact ⟨(e.field, e) :: ps, h1, by rw [h2]; simp, h3, List.Forall₂.cons ⟨(c166_expr_exact _ _).1 ⟨he, hev'⟩, rfl⟩ h4, h5⟩
    · rintro ⟨ps, h1, h2, h3, h4, h5⟩
      cases h4 with
      | cons hx hrest =>
        rename_i p ps
        obtain ⟨hd, hpf⟩ := hx
        obtain ⟨he, hev⟩ := (c166_expr_exact _ _).2 hd
        have hpe : p = (p.2.field, p.2) := by rw [← hpf]
        have hnot : p.2.field ∉ d.conds.map Prod.fst := by
          intro hm
          rw [h2] at h5
          simp only [List.map_append, List.map_cons] at h5
          rw [List.nodup_append] at h5
          exact h5.2.2 _ hm _ (by simp) hpf.symm
        have hany : ¬ (d.conds.any (fun q => q.1 == p.2.field) = true) := by
          intro hc
          obtain ⟨q, hq, hqe⟩ := List.any_eq_true.1 hc
          exact hnot (List.mem_map.2 ⟨q, hq, by simpa using hqe⟩)
        refine ⟨?_, h3⟩
        simp only [addAll]
        rw [he]
        simp only
        rw [if_neg (by rw [hev]; decide)]
        unfold Dc.add
        rw [if_neg hany, if_neg (by simp)]
        have hn' : (({ d with conds := d.conds ++ [(p.2.field, p.2)] } : Dc).conds.map Prod.fst).Nodup := by
          rw [h2] at h5
          have e : (d.conds ++ p :: ps).map Prod.fst = (d.conds ++ [(p.2.field, p.2)]).map Prod.fst ++ ps.map Prod.fst := by
            rw [← hpe]; simp
          rw [e, List.nodup_append] at h5
          exact h5.1
        refine ((ih _ hn').2 ⟨ps, h1, ?_, h3, hrest, h5⟩).1
        rw [h2, ← hpe]; simp

/-- C166: a document is read as valid exactly from JSON that describes it, and is then the one described. -/
theorem c166_doc_exact (j : J) (d : Dc) : (fromDoc j = some d ∧ d.valid = true) ↔ Describes j d := by
  constructor
  · rintro ⟨h, hv⟩
    cases j <;> simp only [fromDoc] at h <;> try (simp only [Option.some.injEq] at h; subst h; simp at hv; done)
    rename_i l
    cases hd : l.lookup kDoc with
    | none => rw [hd] at h; simp only [Option.getD_none, getI64, Option.some.injEq] at h; subst h; simp at hv
    | some n =>
      rw [hd] at h
      simp only [Option.getD_some] at h
      cases hi : getI64 n with
      | none => rw [hi] at h; simp only [Option.some.injEq] at h; subst h; simp at hv
      | some i =>
        rw [hi] at h
        simp only at h
        cases hc : l.lookup kCond with
        | none => rw [hc] at h; simp only [Option.getD_none, Option.some.injEq] at h; subst h; simp at hv
        | some c =>
          rw [hc] at h
          simp only [Option.getD_some] at h
          cases c <;> simp only at h <;> try (simp only [Option.some.injEq] at h; subst h; simp at hv; done)
          rename_i a
          obtain ⟨ps, h1, h2, h3, h4, h5⟩ := (addAll_exact { Dc.new with id := i } d a (by simp [Dc.new])).1 ⟨h, hv⟩
          simp only [Dc.new, List.nil_append] at h1 h2
          subst h2
          exact ⟨l, n, a, rfl, hd, by rw [hi, h1], hc, h4, h5, h3⟩
  · rintro ⟨l, n, a, rfl, h1, h2, h3, h4, h5, h6⟩
    refine ⟨?_, h6⟩
    simp only [fromDoc]
    rw [h1, h3]
    simp only [Option.getD_some]
    rw [h2]
    simp only
    exact ((addAll_exact { Dc.new with id := d.id } d a (by simp [Dc.new])).2 ⟨d.conds, rfl, by simp [Dc.new], h6, h4, h5⟩).1

/-- A document as applications build it: by `AddExpression` of valid expressions on named fields. -/
inductive Built : Dc → Prop
  | new (id : Int) : Built { Dc.new with id := id }
  | add (d : Dc) (e : Ex) : Built d → e.field ≠ [] → e.valid = true → Built (d.add e).2

theorem built_ok {d : Dc} (h : Built d) : (d.conds.map Prod.fst).Nodup ∧ d.valid = true ∧
    ∀ p ∈ d.conds, p.1 = p.2.field ∧ p.2.field ≠ [] ∧ p.2.valid = true := by
  induction h with
  | new id => simp [Dc.new]
  | add d e _ hf hv ih =>
    obtain ⟨h1, h2, h3⟩ := ih
    unfold Dc.add
    split
    · exact ⟨h1, h2, h3⟩
    · rename_i hany
      have hnot : e.field ∉ d.conds.map Prod.fst := by
        intro hm
        obtain ⟨p, hp, hpe⟩ := List.mem_map.1 hm
        exact hany (List.any_eq_true.2 ⟨p, hp, by simp [hpe]⟩)
      refine ⟨?_, h2, ?_⟩
      · simp only [List.map_append, List.map_cons, List.map_nil]
        rw [List.nodup_append]
        exact ⟨h1, by simp, fun x hx y hy hxy => by simp at hy; subst hy; subst hxy; exact hnot hx⟩
      · intro p hp
        simp only [List.mem_append, List.mem_singleton] at hp
        rcases hp with hp | rfl
        · exact h3 p hp
        · exact ⟨rfl, hf, hv⟩

theorem toI64_id {n : Int} (h : -(2 ^ 63) ≤ n ∧ n < 2 ^ 63) : toI64 n = n := by
  unfold toI64
  omega

/-- C166: a document with at least one condition that is written is read back with the same id and the same conditions, in whatever
order the map is walked. -/
theorem c166_doc_roundtrip (d : Dc) (h : Built d) (hne : d.conds ≠ []) (hid : -(2 ^ 63) ≤ d.id ∧ d.id < 2 ^ 63)
    (order : List (Str × Ex)) (ho : order.Perm d.conds) :
    ∃ d', fromDoc (toDoc d order) = some d' ∧ d'.valid = true ∧ d'.id = d.id ∧ d'.conds.Perm d.conds := by
  obtain ⟨h1, h2, h3⟩ := built_ok h
  have hon : order ≠ [] := by
    intro hc; subst hc
    exact hne (List.nil_perm.1 ho)
  refine ⟨⟨d.id, order, true⟩, ?_, rfl, rfl, ho⟩
  refine ((c166_doc_exact _ _).2 ⟨_, .int d.id, order.map (fun p => toExpr p.2), rfl, rfl, ?_, ?_, ?_, ?_, rfl⟩).1
  · simp only [getI64, toI64_id hid]
  · rw [if_neg hon]; rfl
  · have : ∀ l : List (Str × Ex), (∀ p ∈ l, p.1 = p.2.field ∧ p.2.field ≠ [] ∧ p.2.valid = true) →
        List.Forall₂ (fun x (p : Str × Ex) => DescribesEx x p.2 ∧ p.1 = p.2.field) (l.map (fun p => toExpr p.2)) l := by
      intro l
      induction l with
      | nil => intro _; exact List.Forall₂.nil
      | cons p t ih =>
        intro hp
        obtain ⟨a, b, c⟩ := hp p (by simp)
        exact List.Forall₂.cons ⟨toExpr_describes p.2 b c, a⟩ (ih (fun q hq => hp q (List.mem_cons_of_mem _ hq)))
    exact this order (fun p hp => h3 p (ho.subset hp))
  · exact (ho.map Prod.fst).nodup_iff.2 h1

/-- C167 violation.  Reading an expression from an object without the key `field` is undefined behaviour (`operator[]` of a constant object);
so is reading a document one of whose conditions lacks it. -/
theorem c167_no_field_violated (l : List (Str × J)) (h : l.lookup kField = none) (id : Int) :
    fromExpr (.obj l) = none ∧ fromDoc (.obj [(kDoc, .int id), (kCond, .arr [.obj l])]) = none := by
  have h1 : fromExpr (.obj l) = none := by simp only [fromExpr]; rw [h]
  refine ⟨h1, ?_⟩
  have e1 : ([(kDoc, J.int id), (kCond, .arr [.obj l])] : List (Str × J)).lookup kDoc = some (.int id) := rfl
  have e2 : ([(kDoc, J.int id), (kCond, .arr [.obj l])] : List (Str × J)).lookup kCond = some (.arr [.obj l]) := rfl
  simp only [fromDoc, e1, e2, Option.getD_some, getI64, addAll, h1]

/-- C167 violation.  A document without conditions (it matches every query) is written with `"cond": null` and not accepted back. -/
theorem c167_empty_violated (id : Int) : fromDoc (toDoc { Dc.new with id := id } []) = some ⟨toI64 id, [], false⟩ := by
  rfl

/-- C167 violation.  Ids that are no 64-bit integers are not rejected: a fraction is cut off, and a number from 2^63 to 2^64 - 1 becomes
negative. -/
theorem c167_id_violated (e : Ex) (hf : e.field ≠ []) (hv : e.valid = true) :
    (∀ t : Int, fromDoc (.obj [(kDoc, .float t), (kCond, .arr [toExpr e])]) = some ⟨t, [(e.field, e)], true⟩) ∧
    (∀ n : Int, 2 ^ 63 ≤ n → n < 2 ^ 64 → fromDoc (.obj [(kDoc, .int n), (kCond, .arr [toExpr e])]) = some ⟨n - 2 ^ 64, [(e.field, e)], true⟩) := by
  have key : ∀ (n : J) (i : Int), getI64 n = some i → fromDoc (.obj [(kDoc, n), (kCond, .arr [toExpr e])]) = some ⟨i, [(e.field, e)], true⟩ := by
    intro n i hi
    exact ((c166_doc_exact _ _).2 ⟨_, n, [toExpr e], rfl, rfl, hi, rfl,
      List.Forall₂.cons ⟨toExpr_describes e hf hv, rfl⟩ List.Forall₂.nil, by simp, rfl⟩).1
  refine ⟨fun t => key _ t rfl, fun n h1 h2 => key _ _ ?_⟩
  simp only [getI64, toI64, Option.some.injEq]
  omega

/-! ### Examples -/

def sampleEx : Ex := ⟨"age".toList, true, ["1".toList, "2".toList], true⟩
def sampleDc : Dc := (({ Dc.new with id := 12 } : Dc).add sampleEx).2

example : Built sampleDc ∧ sampleDc.conds ≠ [] := ⟨.add _ _ (.new 12) (by decide) rfl, by decide⟩
example : fromDoc (toDoc sampleDc sampleDc.conds) = some sampleDc := by rfl
example : (fromDoc (.obj [(kDoc, .int 1), (kCond, .arr [toExpr sampleEx, toExpr sampleEx])])).map Dc.valid = some false := by rfl

end Ltio.Inv.Json
