import Verif.Source.Props
import Verif.Inverted.Json
/-
How a source of components/source_loader reads its configuration (C189, C190): `NameStructSource::Initialize`, `Source::Initialize`,
`Parser::Initialize`, `ColumnParser::Initialize` with `from_json` of a column, `LoaderFactory::CreateLoader`, `FileLoader::Initialize`.

nlohmann::json by its contract: `value(key, default)` and conversions throw on a wrong type; `at` throws if the key is missing; `operator[]`
of a constant object with a missing key is undefined (an assertion in debug builds).  The registry of parsers is the initial one
(`RegisterParserCreator` not called).
-/
namespace Ltio.Source.Config
open Ltio.Text Ltio.Source
open Ltio.Inv.Json (J strings)

/-- How a call ends. -/
inductive Res (α : Type) where
  | ok (a : α)
  /-- it returns false -/
  | refused
  /-- an exception leaves it -/
  | threw
  /-- `CHECK` fails: the process ends -/
  | aborted
  /-- undefined behaviour -/
  | undef

def Res.bind {α β : Type} : Res α → (α → Res β) → Res β
  | .ok a, f => f a
  | .refused, _ => .refused
  | .threw, _ => .threw
  | .aborted, _ => .aborted
  | .undef, _ => .undef

/-- Go on only if a check holds, else return false. -/
def need {α : Type} (p : Prop) [Decidable p] (r : Res α) : Res α := if p then r else .refused

def getStr : J → Res Str
  | .str s => .ok s
  | _ => .threw

def getBool : J → Res Bool
  | .bool b => .ok b
  | _ => .threw

def getStrs : J → Res (List Str)
  | .arr l => (strings l).elim .threw .ok
  | _ => .threw

/-- `j.value(key, "default")`. -/
def valueStr (l : List (Str × J)) (k d : Str) : Res Str :=
  match l.lookup k with
  | none => .ok d
  | some j => getStr j

/-- `j.value(key, null)`. -/
def value (l : List (Str × J)) (k : Str) : J := (l.lookup k).getD .null

/-- `j[key]` of a constant object. -/
def idx (l : List (Str × J)) (k : Str) : Res J :=
  match l.lookup k with
  | none => .undef
  | some j => .ok j

/-- `j.at(key)`. -/
def at_ (l : List (Str × J)) (k : Str) : Res J :=
  match l.lookup k with
  | none => .threw
  | some j => .ok j

def s (x : String) : Str := x.toList

/-- `ToSourceValueType` (parser.cc:16-32). -/
def typeOf (t : Str) : Ty :=
  if t = s "string" then .string
  else if t = s "int" then .int
  else if t = s "bool" then .bool
  else if t = s "json" then .json
  else if t = s "double" then .double
  else .invalid

/-- `from_json(const Json&, ColumnInfo&)` (column_parser.cc:60-74) of an object; `none`: the column is null (an exception was caught). -/
def fromScheme (l : List (Str × J)) : Res (Option (Str × Column J)) :=
  match (idx l (s "name")).bind fun jn => (getStr jn).bind fun n => (idx l (s "allow_null")).bind fun ja => (getBool ja).bind fun a =>
    (idx l (s "default")).bind fun d => (idx l (s "type")).bind fun jt => (getStr jt).bind fun t => .ok (n, ⟨typeOf t, .json d, a⟩) with
  | .ok c => .ok (some c)
  | .threw => .ok none
  | .refused => .refused
  | .aborted => .aborted
  | .undef => .undef

/-- `CheckDefault` (parser.cc:54-72). -/
def checkDefault (t : Ty) (d : J) : Bool :=
  match d, t with
  | .null, _ => true
  | .int _, .int | .float _, .int | .int _, .double | .float _, .double => true
  | .bool _, .bool => true
  | .str _, .string => true
  | _, .json => true
  | _, _ => false

/-- The default of a column as read. -/
def dfltOf (c : Column J) : J :=
  match c.dflt with
  | .json d => d
  | _ => .null

/-- The loop over the schemes (column_parser.cc:153-171). -/
def addSchemes : List J → (Str → Option (Column J)) → Res (Str → Option (Column J))
  | [], m => .ok m
  | .obj l :: t, m => (fromScheme l).bind fun r => match r with
    | none => .refused
    | some (n, c) => need (checkDefault c.type (dfltOf c) = true) (addSchemes t (fun x => if x = n then some c else m x))
  | _ :: _, _ => .refused

/-- What a source is configured to do. -/
structure Setup where
  cfg : Cfg J
  /-- `content_mode_` -/
  mode : Str
  files : List Str

/-- `config.find("ignore_header_line")` (column_parser.cc:189-194). -/
def ignoreOf (l : List (Str × J)) : Res Bool :=
  match l.lookup (s "ignore_header_line") with
  | none => .ok false
  | some j => getBool j

/-- `schemes.is_array()` and the loop (column_parser.cc:147-171). -/
def schemesOf (l : List (Str × J)) : Res (Str → Option (Column J)) :=
  match value l (s "schemes") with
  | .arr a => addSchemes a (fun _ => none)
  | _ => .refused

/-- `header.is_array()`, `header.get<…>()` (column_parser.cc:179-184). -/
def headerOf (l : List (Str × J)) : Res (List Str) :=
  match value l (s "header") with
  | .arr a => getStrs (.arr a)
  | _ => .refused

/-- `ColumnParser::Initialize` (column_parser.cc:141-197) with `Parser::Initialize` (parser.cc:36-47). -/
def parserInit (parse : Str → Option J) (l : List (Str × J)) : Res (Cfg J × Str) :=
  (valueStr l (s "type") []).bind fun ty => (valueStr l (s "primary") []).bind fun pr => (valueStr l (s "content_mode") (s "line")).bind fun mode =>
  need (ty ≠ [] ∧ pr ≠ []) <| (schemesOf l).bind fun cols => (valueStr l (s "delimiter") []).bind fun d => need (d ≠ []) <|
  (headerOf l).bind fun h => need (h ≠ []) <| (ignoreOf l).bind fun ig => .ok (⟨d, h, cols, pr, ig, parse⟩, mode)

/-- The loop over the resources (file_loader.cc:84-93). -/
def resources : List J → List Str → Res (List Str)
  | [], fs => .ok fs
  | .obj l :: t, fs => (valueStr l (s "path") []).bind fun p => resources t (if p = [] then fs else fs ++ [p])
  | _ :: _, _ => .aborted

/-- `resources.is_array()` and the loop (file_loader.cc:80-93). -/
def resourcesOf (l : List (Str × J)) : Res (List Str) :=
  match value l (s "resources") with
  | .arr a => resources a []
  | _ => .refused

/-- `CreateLoader` (loader_factory.cc:19-28), then `FileLoader::Initialize` (file_loader.cc:16-22, 72-95). -/
def loaderInit (l : List (Str × J)) : Res (List Str) :=
  (at_ l (s "type")).bind fun jt => (getStr jt).bind fun t => if t = s "file" then resourcesOf l else .aborted

/-- `Source::Initialize` (source.cc:30-67), then `NameStructSource::Initialize` (name_struct_source.h:36-41), which reads the primary key, present by
then, again. -/
def setUp (parse : Str → Option J) : J → Res Setup
  | .obj l =>
    match value l (s "loader"), value l (s "parser") with
    | .obj ll, .obj lp =>
      (valueStr lp (s "type") []).bind fun ty => need (ty = s "list" ∨ ty = s "column") <|
      (parserInit parse lp).bind fun r => (loaderInit ll).bind fun fs => .ok ⟨r.1, r.2, fs⟩
    | _, _ => .refused
  | _ => .aborted

/-- One file in the mode "content" (file_loader.cc:49-58). -/
def whole (cf : Cfg J) (r : Option (Table J × Int)) (f : File) : Option (Table J × Int) :=
  r.bind fun x => match f with
    | .missing => some x
    | .text t => some (onReadData cf x.1 t, x.2)
    | .broken _ => none

/-- `FileLoader::Load` (file_loader.cc:24-70) in each mode; the paths have been looked up.  Reading a whole file that cannot be read is not modelled
(the mode "content" has `none` there, too). -/
def loadAll (u : Setup) (fs : List File) (tb : Table J) : Option (Table J × Int) :=
  if u.mode = s "line" then load u.cfg fs tb
  else if u.mode = s "content" then fs.foldl (whole u.cfg) (some (tb, 0))
  else if fs.all (fun f => f = .missing) then some (tb, 0)
  else some (tb, -1)

/-! ### Specification -/

/-- A text that may be left out. -/
def Opt (l : List (Str × J)) (k d v : Str) : Prop := l.lookup k = some (.str v) ∨ l.lookup k = none ∧ v = d

/-- The types and their names. -/
def typeNames : List (Str × Ty) := [(s "string", .string), (s "int", .int), (s "bool", .bool), (s "json", .json), (s "double", .double)]

/-- The type a text names; one that names none is `invalid`. -/
def TypeName (t : Str) (ty : Ty) : Prop := (t, ty) ∈ typeNames ∨ ty = .invalid ∧ ∀ x, (t, x) ∉ typeNames

/-- A default that a type may have: null, or a value of the type. -/
inductive Fits : Ty → J → Prop where
  | null (ty : Ty) : Fits ty .null
  | intInt (n : Int) : Fits .int (.int n)
  | intFloat (n : Int) : Fits .int (.float n)
  | doubleInt (n : Int) : Fits .double (.int n)
  | doubleFloat (n : Int) : Fits .double (.float n)
  | bool (b : Bool) : Fits .bool (.bool b)
  | str (t : Str) : Fits .string (.str t)
  | json (j : J) : Fits .json j

/-- A JSON value describes a column: it has a name, a type, a default that is null or of that type, and says whether it may be null. -/
structure DescribesColumn (j : J) (n : Str) (c : Column J) : Prop where
  obj : ∃ l t d, j = .obj l ∧ l.lookup (s "name") = some (.str n) ∧ l.lookup (s "allow_null") = some (.bool c.allowNull) ∧
    l.lookup (s "default") = some d ∧ c.dflt = .json d ∧ l.lookup (s "type") = some (.str t) ∧ TypeName t c.type ∧ Fits c.type d

/-- A JSON value describes the configuration of a source. -/
structure Describes (j : J) (u : Setup) : Prop where
  obj : ∃ l ll lp ss rs cs ps t, j = .obj l ∧ l.lookup (s "loader") = some (.obj ll) ∧ l.lookup (s "parser") = some (.obj lp) ∧
    -- the loader: of files, with their paths (a path left out is empty, and empty paths are skipped)
    ll.lookup (s "type") = some (.str (s "file")) ∧ ll.lookup (s "resources") = some (.arr rs) ∧
    List.Forall₂ (fun r p => ∃ m, r = .obj m ∧ Opt m (s "path") [] p) rs ps ∧ u.files = ps.filter (fun p => p ≠ []) ∧
    -- the parser
    lp.lookup (s "type") = some (.str t) ∧ (t = s "list" ∨ t = s "column") ∧ lp.lookup (s "primary") = some (.str u.cfg.primary) ∧ u.cfg.primary ≠ [] ∧
    Opt lp (s "content_mode") (s "line") u.mode ∧ lp.lookup (s "delimiter") = some (.str u.cfg.delimiter) ∧ u.cfg.delimiter ≠ [] ∧
    lp.lookup (s "header") = some (.arr (u.cfg.header.map J.str)) ∧ u.cfg.header ≠ [] ∧
    (lp.lookup (s "ignore_header_line") = some (.bool u.cfg.ignoreHeaderLine) ∨ lp.lookup (s "ignore_header_line") = none ∧ u.cfg.ignoreHeaderLine = false) ∧
    lp.lookup (s "schemes") = some (.arr ss) ∧ List.Forall₂ (fun j (c : Str × Column J) => DescribesColumn j c.1 c.2) ss cs ∧
    -- of several columns of one name, the last
    u.cfg.columns = fun n => cs.reverse.lookup n

/-! ### Proofs -/

theorem bind_ok {α β : Type} {x : Res α} {f : α → Res β} {b : β} : x.bind f = .ok b ↔ ∃ a, x = .ok a ∧ f a = .ok b := by
  cases x <;> simp [Res.bind]

theorem need_ok {α : Type} {p : Prop} [Decidable p] {r : Res α} {a : α} : need p r = .ok a ↔ p ∧ r = .ok a := by
  unfold need; split <;> simp_all

theorem getStr_ok {j : J} {t : Str} : getStr j = .ok t ↔ j = .str t := by cases j <;> simp [getStr]

theorem getBool_ok {j : J} {b : Bool} : getBool j = .ok b ↔ j = .bool b := by cases j <;> simp [getBool]

theorem valueStr_ok {l : List (Str × J)} {k d v : Str} : valueStr l k d = .ok v ↔ Opt l k d v := by
  unfold valueStr Opt
  cases h : l.lookup k with
  | none => simp [eq_comm]
  | some j => simp [getStr_ok]

theorem idx_ok {l : List (Str × J)} {k : Str} {j : J} : idx l k = .ok j ↔ l.lookup k = some j := by
  unfold idx; cases l.lookup k <;> simp

theorem at_ok {l : List (Str × J)} {k : Str} {j : J} : at_ l k = .ok j ↔ l.lookup k = some j := by
  unfold at_; cases l.lookup k <;> simp

theorem strings_iff {a : List J} {vs : List Str} : strings a = some vs ↔ a = vs.map J.str :=
  ⟨Inv.Json.strings_some, fun h => by rw [h]; exact Inv.Json.strings_map vs⟩

theorem fromScheme_ok {l : List (Str × J)} {n : Str} {c : Column J} : fromScheme l = .ok (some (n, c)) ↔
    ∃ t d, l.lookup (s "name") = some (.str n) ∧ l.lookup (s "allow_null") = some (.bool c.allowNull) ∧
    l.lookup (s "default") = some d ∧ c.dflt = .json d ∧ l.lookup (s "type") = some (.str t) ∧ c.type = typeOf t := by
  unfold fromScheme
  generalize hx : ((idx l (s "name")).bind fun jn => (getStr jn).bind fun n => (idx l (s "allow_null")).bind fun ja => (getBool ja).bind fun a =>
    (idx l (s "default")).bind fun d => (idx l (s "type")).bind fun jt => (getStr jt).bind fun t => (.ok (n, ⟨typeOf t, .json d, a⟩) : Res (Str × Column J))) = x
  have h1 : x = .ok (n, c) ↔ ∃ t d, l.lookup (s "name") = some (.str n) ∧ l.lookup (s "allow_null") = some (.bool c.allowNull) ∧
      l.lookup (s "default") = some d ∧ c.dflt = .json d ∧ l.lookup (s "type") = some (.str t) ∧ c.type = typeOf t := by
    rw [← hx]
    simp only [bind_ok, idx_ok, getStr_ok, getBool_ok, Res.ok.injEq, Prod.mk.injEq]
    constructor
    · rintro ⟨jn, a1, n', rfl, ja, a2, a, rfl, d, a3, jt, a4, t, rfl, rfl, rfl⟩
      exact ⟨t, d, a1, a2, a3, rfl, a4, rfl⟩
    · rintro ⟨t, d, a1, a2, a3, a4, a5, a6⟩
      exact ⟨_, a1, _, rfl, _, a2, _, rfl, _, a3, _, a5, _, rfl, rfl, by obtain ⟨x, y, z⟩ := c; simp only at a4 a6; rw [a4, a6]⟩
  rw [← h1]
  cases x <;> simp

theorem typeOf_iff (t : Str) (ty : Ty) : typeOf t = ty ↔ TypeName t ty := by
  unfold typeOf TypeName typeNames
  by_cases h1 : t = s "string"
  · subst h1; cases ty <;> simp [s]
  by_cases h2 : t = s "int"
  · subst h2; cases ty <;> simp [s]
  by_cases h3 : t = s "bool"
  · subst h3; cases ty <;> simp [s]
  by_cases h4 : t = s "json"
  · subst h4; cases ty <;> simp [s]
  by_cases h5 : t = s "double"
  · subst h5; cases ty <;> simp [s]
  simp [h1, h2, h3, h4, h5, eq_comm]

theorem checkDefault_iff (ty : Ty) (d : J) : checkDefault ty d = true ↔ Fits ty d := by
  constructor
  · intro h
    cases d <;> cases ty <;> first | constructor | (exact absurd h (by simp [checkDefault]))
  · intro h
    cases h with
    | json => cases d <;> rfl
    | _ => rfl

theorem addSchemes_ok {a : List J} {m m' : Str → Option (Column J)} : addSchemes a m = .ok m' ↔
    ∃ cs, List.Forall₂ (fun j (c : Str × Column J) => DescribesColumn j c.1 c.2) a cs ∧ m' = fun n => (cs.reverse.lookup n).or (m n) := by
  induction a generalizing m with
  | nil => simp only [addSchemes, Res.ok.injEq, List.forall₂_nil_left_iff]; simp [eq_comm]
  | cons j t ih =>
    cases j with
    | obj l =>
      simp only [addSchemes, bind_ok]
      constructor
      · rintro ⟨r, h1, h2⟩
        cases r with
        | none => simp at h2
        | some nc =>
          obtain ⟨n, c⟩ := nc
          simp only [need_ok, ih] at h2
          obtain ⟨h2, cs, h3, h4⟩ := h2
          obtain ⟨t', d, a1, a2, a3, a4, a5, a6⟩ := fromScheme_ok.1 h1
          refine ⟨(n, c) :: cs, .cons ⟨l, t', d, rfl, a1, a2, a3, a4, a5, (typeOf_iff _ _).1 a6.symm, (checkDefault_iff _ _).1 (by rw [dfltOf, a4] at h2; exact h2)⟩ h3, ?_⟩
          rw [h4]
          funext x
          rw [List.reverse_cons, List.lookup_append]
          by_cases hx : x = n
          · subst hx; cases cs.reverse.lookup x <;> simp
          · have : (x == n) = false := by simpa using hx
            cases cs.reverse.lookup x <;> simp [List.lookup_cons, this, hx]
      · rintro ⟨cs, h1, h2⟩
        cases h1 with
        | cons hd tl =>
          rename_i nc cs
          obtain ⟨n, c⟩ := nc
          obtain ⟨l', t', d, a0, a1, a2, a3, a4, a5, a6, a7⟩ := hd
          injection a0 with a0
          subst a0
          refine ⟨some (n, c), fromScheme_ok.2 ⟨t', d, a1, a2, a3, a4, a5, ((typeOf_iff _ _).2 a6).symm⟩, ?_⟩
          simp only [need_ok, ih]
          refine ⟨by rw [dfltOf, a4]; exact (checkDefault_iff _ _).2 a7, cs, tl, ?_⟩
          rw [h2]
          funext x
          rw [List.reverse_cons, List.lookup_append]
          by_cases hx : x = n
          · subst hx; cases cs.reverse.lookup x <;> simp
          · have : (x == n) = false := by simpa using hx
            cases cs.reverse.lookup x <;> simp [List.lookup_cons, this, hx]
    | _ =>
      simp only [addSchemes, reduceCtorEq, false_iff]
      rintro ⟨cs, h1, -⟩
      cases h1 with
      | cons hd tl =>
        obtain ⟨l', _, _, a0, _⟩ := hd
        cases a0

theorem resources_ok {a : List J} {fs fs' : List Str} : resources a fs = .ok fs' ↔
    ∃ ps, List.Forall₂ (fun r p => ∃ m, r = .obj m ∧ Opt m (s "path") [] p) a ps ∧ fs' = fs ++ ps.filter (fun p => p ≠ []) := by
  induction a generalizing fs with
  | nil => simp only [resources, Res.ok.injEq, List.forall₂_nil_left_iff]; simp [eq_comm]
  | cons j t ih =>
    cases j with
    | obj l =>
      simp only [resources, bind_ok, valueStr_ok, ih]
      constructor
      · rintro ⟨p, h1, ps, h2, h3⟩
        refine ⟨p :: ps, .cons ⟨l, rfl, h1⟩ h2, ?_⟩
        rw [h3]
        by_cases hp : p = [] <;> simp [hp]
      · rintro ⟨ps, h1, h2⟩
        cases h1 with
        | cons hd tl =>
          rename_i p ps
          obtain ⟨m, a0, a1⟩ := hd
          injection a0 with a0
          subst a0
          refine ⟨p, a1, ps, tl, ?_⟩
          rw [h2]
          by_cases hp : p = [] <;> simp [hp]
    | _ =>
      simp only [resources, reduceCtorEq, false_iff]
      rintro ⟨cs, h1, -⟩
      cases h1 with
      | cons hd tl =>
        obtain ⟨m, a0, _⟩ := hd
        cases a0

theorem value_obj {l m : List (Str × J)} {k : Str} : value l k = .obj m ↔ l.lookup k = some (.obj m) := by
  unfold value; cases l.lookup k <;> simp

theorem value_arr {l : List (Str × J)} {a : List J} {k : Str} : value l k = .arr a ↔ l.lookup k = some (.arr a) := by
  unfold value; cases l.lookup k <;> simp

theorem schemesOf_ok {l : List (Str × J)} {m : Str → Option (Column J)} : schemesOf l = .ok m ↔
    ∃ ss cs, l.lookup (s "schemes") = some (.arr ss) ∧ List.Forall₂ (fun j (c : Str × Column J) => DescribesColumn j c.1 c.2) ss cs ∧
      m = fun n => cs.reverse.lookup n := by
  unfold schemesOf
  have hval : ∀ a, value l (s "schemes") = .arr a ↔ l.lookup (s "schemes") = some (.arr a) := fun a => value_arr
  cases hv : value l (s "schemes") with
  | arr a =>
    simp only [addSchemes_ok, (hval a).1 hv, Option.some.injEq, J.arr.injEq, Option.or_none]
    constructor
    · rintro ⟨cs, h⟩; exact ⟨a, cs, rfl, h⟩
    · rintro ⟨_, cs, rfl, h⟩; exact ⟨cs, h⟩
  | _ =>
    simp only [reduceCtorEq, false_iff]
    rintro ⟨ss, cs, h, -⟩
    rw [(hval ss).2 h] at hv
    cases hv

theorem headerOf_ok {l : List (Str × J)} {h : List Str} : headerOf l = .ok h ↔ l.lookup (s "header") = some (.arr (h.map J.str)) := by
  unfold headerOf
  rw [← value_arr]
  cases hv : value l (s "header") with
  | arr a =>
    simp only [getStrs]
    cases hs : strings a with
    | none =>
      simp only [Option.elim_none, reduceCtorEq, J.arr.injEq, false_iff]
      intro e
      rw [strings_iff.2 e] at hs
      cases hs
    | some vs =>
      simp only [Option.elim_some, Res.ok.injEq, J.arr.injEq]
      rw [strings_iff.1 hs]
      constructor
      · rintro rfl; rfl
      · intro e
        have h1 := Inv.Json.strings_map vs
        rw [e, Inv.Json.strings_map] at h1
        simpa using h1.symm
  | _ => simp

theorem ignoreOf_ok {l : List (Str × J)} {b : Bool} : ignoreOf l = .ok b ↔
    l.lookup (s "ignore_header_line") = some (.bool b) ∨ l.lookup (s "ignore_header_line") = none ∧ b = false := by
  unfold ignoreOf
  cases l.lookup (s "ignore_header_line") with
  | none => simp [eq_comm]
  | some j => simp [getBool_ok]

theorem resourcesOf_ok {l : List (Str × J)} {fs : List Str} : resourcesOf l = .ok fs ↔
    ∃ rs ps, l.lookup (s "resources") = some (.arr rs) ∧ List.Forall₂ (fun r p => ∃ m, r = .obj m ∧ Opt m (s "path") [] p) rs ps ∧
      fs = ps.filter (fun p => p ≠ []) := by
  unfold resourcesOf
  have hval : ∀ a, value l (s "resources") = .arr a ↔ l.lookup (s "resources") = some (.arr a) := fun a => value_arr
  cases hv : value l (s "resources") with
  | arr a =>
    simp only [resources_ok, (hval a).1 hv, Option.some.injEq, J.arr.injEq, List.nil_append]
    constructor
    · rintro ⟨cs, h⟩; exact ⟨a, cs, rfl, h⟩
    · rintro ⟨_, cs, rfl, h⟩; exact ⟨cs, h⟩
  | _ =>
    simp only [reduceCtorEq, false_iff]
    rintro ⟨ss, cs, h, -⟩
    rw [(hval ss).2 h] at hv
    cases hv

theorem opt_nonempty {l : List (Str × J)} {k v : Str} (h : Opt l k [] v) (hv : v ≠ []) : l.lookup k = some (.str v) := by
  rcases h with h | ⟨-, h⟩
  · exact h
  · exact absurd h hv

/-- **C190.** A configuration is accepted exactly if it describes a source: with a file loader and a column parser, the columns' names, types and defaults,
a delimiter, a header and a primary key; and the source then has exactly the setup described. -/
theorem c190_accepted_iff (parse : Str → Option J) (j : J) (u : Setup) : setUp parse j = .ok u ↔ Describes j u ∧ u.cfg.parse = parse := by
  constructor
  · intro h
    cases j with
    | obj l =>
      simp only [setUp] at h
      cases hl : value l (s "loader") with
      | obj ll =>
        cases hp : value l (s "parser") with
        | obj lp =>
          rw [hl, hp] at h
          simp only [bind_ok, need_ok, parserInit, loaderInit, at_ok, getStr_ok, valueStr_ok, schemesOf_ok, headerOf_ok, ignoreOf_ok, Res.ok.injEq] at h
          obtain ⟨t, h1, ht, r, ⟨t', h1', pr, h2, mode, h3, ⟨ht', hpr⟩, cols, ⟨ss, cs, h4, h5, h6⟩, d, h7, hd, hh, h8, hhn, ig, h9, rfl⟩, fs, ⟨jt, k1, t2, rfl, k2⟩, rfl⟩ := h
          split at k2
          · rename_i ht2
            obtain ⟨rs, ps, m1, m2, m3⟩ := resourcesOf_ok.1 k2
            have htn : t ≠ [] := by rcases ht with rfl | rfl <;> simp [s]
            refine ⟨⟨l, ll, lp, ss, rs, cs, ps, t, rfl, value_obj.1 hl, value_obj.1 hp, by rw [k1, ht2], m1, m2, m3, opt_nonempty h1 htn, ht, opt_nonempty h2 hpr, hpr, h3,
              opt_nonempty h7 hd, hd, h8, hhn, h9, h4, h5, h6⟩, rfl⟩
          · cases k2
        | _ => rw [hl, hp] at h; cases h
      | _ => rw [hl] at h; cases h
    | _ => simp [setUp] at h
  · rintro ⟨⟨l, ll, lp, ss, rs, cs, ps, t, rfl, hl, hp, k1, k2, k3, k4, h1, ht, h2, h2', h3, h7, hd, h8, hhn, h9, h4, h5, h6⟩, hparse⟩
    have htn : t ≠ [] := by rcases ht with rfl | rfl <;> simp [s]
    simp only [setUp, value_obj.2 hl, value_obj.2 hp, bind_ok, need_ok, parserInit, loaderInit, at_ok, getStr_ok, valueStr_ok, schemesOf_ok, headerOf_ok, ignoreOf_ok,
      Res.ok.injEq]
    refine ⟨t, .inl h1, ht, (u.cfg, u.mode), ⟨t, .inl h1, u.cfg.primary, .inl h2, u.mode, h3, ⟨htn, h2'⟩, u.cfg.columns, ⟨ss, cs, h4, h5, h6⟩, u.cfg.delimiter, .inl h7, hd,
      u.cfg.header, h8, hhn, u.cfg.ignoreHeaderLine, h9, ?_⟩, u.files, ⟨_, k1, _, rfl, ?_⟩, rfl⟩
    · rw [← hparse]
    · rw [if_pos rfl]
      exact resourcesOf_ok.2 ⟨rs, ps, k2, k3, k4⟩

/-! ### Violations -/

/-- The members of a column's description that are read (column_parser.cc:66-69), and the texts around them. -/
def Lacks (m : List (Str × J)) : Prop :=
  m.lookup (s "name") = none ∨ ∃ n, m.lookup (s "name") = some (.str n) ∧
    (m.lookup (s "allow_null") = none ∨ ∃ b, m.lookup (s "allow_null") = some (.bool b) ∧
      (m.lookup (s "default") = none ∨ ∃ d, m.lookup (s "default") = some d ∧ m.lookup (s "type") = none))

/-- The parts of a configuration read before the columns are fine. -/
structure Begins (j : J) (lp : List (Str × J)) : Prop where
  obj : ∃ l ll t p, j = .obj l ∧ l.lookup (s "loader") = some (.obj ll) ∧ l.lookup (s "parser") = some (.obj lp) ∧
    lp.lookup (s "type") = some (.str t) ∧ (t = s "list" ∨ t = s "column") ∧ lp.lookup (s "primary") = some (.str p) ∧ p ≠ [] ∧
    lp.lookup (s "content_mode") = none

theorem lacks_undef {m : List (Str × J)} (h : Lacks m) : fromScheme m = .undef := by
  unfold fromScheme
  rcases h with h | ⟨n, h, h2 | ⟨b, h2, h3 | ⟨d, h3, h4⟩⟩⟩ <;> simp [idx, getStr, getBool, Res.bind, *]

/-- **C189, violation.** A configuration in which a column leaves out its name, `allow_null`, default or type is neither accepted nor refused: its reading
is undefined (`operator[]` of a constant object, an assertion in debug builds; the `catch` around it does not help). -/
theorem c189_missing_member_violated (parse : Str → Option J) (j : J) (lp : List (Str × J)) (hb : Begins j lp) (m : List (Str × J)) (hm : Lacks m) (rest : List J)
    (hs : lp.lookup (s "schemes") = some (.arr (.obj m :: rest))) : ∀ u, setUp parse j ≠ .ok u ∧ setUp parse j = .undef := by
  have h : setUp parse j = .undef := by
    obtain ⟨l, ll, t, p, rfl, h1, h2, h3, ht, h4, hp, h5⟩ := hb
    have htn : t ≠ [] := by rcases ht with rfl | rfl <;> simp [s]
    simp only [setUp, value_obj.2 h1, value_obj.2 h2, parserInit, valueStr, h3, h4, h5, getStr, Res.bind, need, ht, htn, hp, ne_eq, not_false_eq_true, and_self, if_true,
      schemesOf, value_arr.2 hs, addSchemes, lacks_undef hm]
  intro u
  rw [h]
  exact ⟨by simp, rfl⟩

/-- **C189, violation.** A name of a loader other than "file", or a resource that is not an object, ends the process; so does a configuration that is
not an object. -/
theorem c189_abort_violated (parse : Str → Option J) :
    (∀ (l ll lp : List (Str × J)) (t t2 : Str) (r : Cfg J × Str), l.lookup (s "loader") = some (.obj ll) → l.lookup (s "parser") = some (.obj lp) →
      lp.lookup (s "type") = some (.str t) → (t = s "list" ∨ t = s "column") → parserInit parse lp = .ok r → ll.lookup (s "type") = some (.str t2) →
      (t2 ≠ s "file" ∨ ∃ x rest, ll.lookup (s "resources") = some (.arr (x :: rest)) ∧ ∀ m, x ≠ .obj m) → setUp parse (.obj l) = .aborted) ∧
    ∀ j, (∀ l, j ≠ .obj l) → setUp parse j = .aborted := by
  constructor
  · intro l ll lp t t2 r h1 h2 h3 ht h4 h5 h6
    simp only [setUp, value_obj.2 h1, value_obj.2 h2, valueStr, h3, getStr, Res.bind, need, ht, if_true, h4, loaderInit, at_, h5]
    by_cases hf : t2 = s "file"
    · rcases h6 with h6 | ⟨x, rest, h6, h7⟩
      · exact absurd hf h6
      · have : resources (x :: rest) [] = .aborted := by
          cases x with
          | obj m => exact absurd rfl (h7 m)
          | _ => rfl
        rw [if_pos hf, resourcesOf, value_arr.2 h6]
        simp only [this]
    · rw [if_neg hf]
  · intro j hj
    cases j with
    | obj l => exact absurd rfl (hj l)
    | _ => rfl

/-- **C189, violation.** An exception leaves the call if the loader has no type. -/
theorem c189_throws_violated (parse : Str → Option J) (l ll lp : List (Str × J)) (t : Str) (r : Cfg J × Str) (h1 : l.lookup (s "loader") = some (.obj ll))
    (h2 : l.lookup (s "parser") = some (.obj lp)) (h3 : lp.lookup (s "type") = some (.str t)) (ht : t = s "list" ∨ t = s "column") (h4 : parserInit parse lp = .ok r)
    (h5 : ll.lookup (s "type") = none) : setUp parse (.obj l) = .threw := by
  simp only [setUp, value_obj.2 h1, value_obj.2 h2, valueStr, h3, getStr, Res.bind, need, ht, if_true, h4, loaderInit, at_, h5]

theorem fields_none {cf : Cfg J} {h : Str} {c : Column J} (hc : cf.columns h = some c) (ht : c.type = .invalid) (ps : List (Str × Str)) (t : Str)
    (hm : (h, t) ∈ ps) (out : Row J) : fields cf ps out = none := by
  induction ps generalizing out with
  | nil => simp at hm
  | cons p ps ih =>
    obtain ⟨x, y⟩ := p
    rw [fields]
    rcases List.mem_cons.1 hm with e | e
    · simp only [Prod.mk.injEq] at e
      obtain ⟨rfl, rfl⟩ := e
      rw [hc]
      simp [handle, ht]
    · cases cf.columns x with
      | none => exact ih e out
      | some c' =>
        simp only
        cases handle cf.parse c' y with
        | none => rfl
        | some v => exact ih e _

/-- **C189, violation.** A column whose type is no type (misspelt) is accepted if its default is null, and no line of any file is ever loaded. -/
theorem c189_useless_violated (parse : Str → Option J) (j : J) (u : Setup) (_ : setUp parse j = .ok u) (h : Str) (c : Column J)
    (hh : h ∈ u.cfg.header) (hc : u.cfg.columns h = some c) (ht : c.type = .invalid) (fs : List File) (tb : Table J) (tb' : Table J) (code : Int)
    (hl : loadAll u fs tb = some (tb', code)) : tb' = tb := by
  have h1 : ∀ line x, onReadData u.cfg x line = x := by
    intro line x
    have : parseContent u.cfg line = none := by
      unfold parseContent
      cases split line u.cfg.delimiter false with
      | none => rfl
      | some ts =>
        rw [Option.bind_some]
        by_cases hlen : ts.length ≠ u.cfg.header.length
        · rw [if_pos hlen]
        · rw [if_neg hlen]
          obtain ⟨i, hi, e⟩ := List.getElem_of_mem hh
          have hlen : ts.length = u.cfg.header.length := by simpa using hlen
          have hm : (h, ts[i]'(by omega)) ∈ u.cfg.header.zip ts := by
            rw [← e, ← List.getElem_zip (h := by simp [hlen, hi])]
            exact List.getElem_mem _
          exact fields_none hc ht _ _ hm []
    unfold onReadData
    rw [this]
  have h2 : ∀ (ls : List Str) x, ls.foldl (onReadData u.cfg) x = x := by
    intro ls
    induction ls with
    | nil => intro x; rfl
    | cons a t ih => intro x; rw [List.foldl_cons, h1]; exact ih x
  unfold loadAll at hl
  split at hl
  · clear hc hh
    induction fs generalizing tb with
    | nil => simp only [load, Option.some.injEq, Prod.mk.injEq] at hl; exact hl.1.symm
    | cons f fs ih =>
      rw [load] at hl
      cases hf : fileLines f with
      | none => rw [hf] at hl; simp at hl
      | some ls => rw [hf, Option.bind_some, h2] at hl; exact ih tb hl
  · split at hl
    · have h3 : ∀ (fs : List File) (n : Int), fs.foldl (whole u.cfg) (some (tb, n)) = some (tb', code) → tb' = tb := by
        intro fs
        induction fs with
        | nil => intro n e; simp only [List.foldl_nil, Option.some.injEq, Prod.mk.injEq] at e; exact e.1.symm
        | cons f t ih =>
          intro n e
          rw [List.foldl_cons] at e
          cases f with
          | missing => exact ih n e
          | text x =>
            have hw : whole u.cfg (some (tb, n)) (.text x) = some (tb, n) := by simp only [whole, Option.bind_some, h1]
            rw [hw] at e
            exact ih n e
          | broken x =>
            have hw : whole u.cfg (some (tb, n)) (.broken x) = none := rfl
            have : ∀ (t : List File), t.foldl (whole u.cfg) none = none := by
              intro t
              induction t with
              | nil => rfl
              | cons a t ih => rw [List.foldl_cons]; exact ih
            rw [hw, this t] at e
            simp at e
      exact h3 fs 0 hl
    · split at hl <;> (simp only [Option.some.injEq, Prod.mk.injEq] at hl; exact hl.1.symm)

/-- **C189, violation.** A content mode that does not exist is accepted, and nothing is ever loaded. -/
theorem c189_mode_violated (parse : Str → Option J) (j : J) (u : Setup) (_ : setUp parse j = .ok u) (hm : u.mode ≠ s "line" ∧ u.mode ≠ s "content")
    (fs : List File) (tb : Table J) : (loadAll u fs tb).map Prod.fst = some tb := by
  unfold loadAll
  rw [if_neg hm.1, if_neg hm.2]
  split <;> rfl

/-! ### Examples -/

def column (n t : String) (d : J) (a : Bool) : J := .obj [(s "name", .str (s n)), (s "type", .str (s t)), (s "default", d), (s "allow_null", .bool a)]

/-- The configuration of the unit test (config_test.json), with the columns given. -/
def demo (cols : List J) (more : List (Str × J)) : J :=
  .obj [(s "loader", .obj [(s "type", .str (s "file")), (s "resources", .arr [.obj [(s "path", .str (s "a.txt"))], .obj []])]),
    (s "parser", .obj ([(s "type", .str (s "column")), (s "delimiter", .str (s "#")), (s "primary", .str (s "name")), (s "header", .arr [.str (s "name"), .str (s "age")]),
      (s "schemes", .arr cols)] ++ more)),
    (s "reloader", .obj [(s "mode", .str (s "interval"))])]

def shows : Res Setup → Option (List (List Str) × Bool × List (Option Ty))
  | .ok u => some ([u.files, u.cfg.header, [u.cfg.delimiter, u.mode]], u.cfg.ignoreHeaderLine, u.cfg.header.map (fun h => (u.cfg.columns h).map (·.type)))
  | _ => none

/-- It is accepted, and so are the ones of the last two violations. -/
theorem w_c190 :
    shows (setUp (fun _ => none) (demo [column "name" "string" (.str []) false, column "age" "int" (.int 5) true] [])) =
      some ([[s "a.txt"], [s "name", s "age"], [s "#", s "line"]], false, [some .string, some .int]) ∧
    shows (setUp (fun _ => none) (demo [column "name" "string" (.str []) false, column "age" "integer" .null true] [(s "content_mode", .str (s "lines"))])) =
      some ([[s "a.txt"], [s "name", s "age"], [s "#", s "lines"]], false, [some .string, some .invalid]) := by
  constructor <;> decide +kernel

/-- The configuration of the unit test without `allow_null`. -/
example : setUp (fun _ => none) (demo [.obj [(s "name", .str (s "name")), (s "type", .str (s "string")), (s "default", .null)]] []) = .undef :=
  (c189_missing_member_violated _ _ _ ⟨_, _, s "column", s "name", rfl, rfl, rfl, rfl, .inr rfl, rfl, by simp [s], rfl⟩ _
    (.inr ⟨s "name", rfl, .inl rfl⟩) [] rfl ⟨⟨[], [], fun _ => none, [], false, fun _ => none⟩, [], []⟩).2

end Ltio.Source.Config
