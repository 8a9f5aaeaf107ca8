import Verif.Text.Split

/-
Model of components/source_loader (C91): the file loader (loader/file_loader.cc), the column parser
(parser/column_parser.cc) and the table keyed by name (source_impl/name_struct_source.h).

A JSON library value is a parameter `J` with its parser; `atof` is not computed (the field remembers
the text).  The configuration is taken as parsed (`Initialize` of the three classes).
-/
namespace Ltio.Source
open Ltio.Text

/-- Column types (parser.h:15-22). -/
inductive Ty where
  | int | double | string | bool | json | invalid
deriving DecidableEq

/-- Field values of a parsed row. -/
inductive Val (J : Type) where
  | str (s : Str)
  | int (n : Int)
  | real (text : Str)
  | bool (b : Bool)
  | json (j : J)
deriving DecidableEq

/-- A column scheme (column_parser.h:16-21). -/
structure Column (J : Type) where
  type : Ty
  dflt : Val J
  allowNull : Bool
deriving DecidableEq

/-- The parser's configuration (column_parser.cc:141-197, parser.cc:36-47). -/
structure Cfg (J : Type) where
  delimiter : Str
  header : List Str
  /-- `columns_`, a map by column name -/
  columns : Str → Option (Column J)
  primary : Str
  ignoreHeaderLine : Bool
  /-- `Json::parse` without exceptions -/
  parse : Str → Option J

/-- The value of leading decimal digits. -/
def digits : Nat → Str → Nat
  | n, [] => n
  | n, c :: t => if c.isDigit then digits (n * 10 + (c.toNat - 48)) t else n

/-- `strtol`'s result is at most the largest `long`, and converted to 32 bits by `atoi` (glibc). -/
def toInt32 (n : Int) : Int :=
  ((max (-9223372036854775808) (min n 9223372036854775807) + 2147483648) % 4294967296) - 2147483648

/-- White space skipped by `atoi`. -/
def isWs (c : Char) : Bool := c = ' ' || (9 ≤ c.toNat && c.toNat ≤ 13)

/-- `atoi` on a text without NUL characters. -/
def atoi (t : Str) : Int :=
  match t.dropWhile isWs with
  | '-' :: r => toInt32 (-(digits 0 r : Int))
  | '+' :: r => toInt32 (digits 0 r)
  | r => toInt32 (digits 0 r)

/-- A parsed row: a JSON object, the latest assignment of a key first. -/
abbrev Row (J : Type) := List (Str × Val J)

/-- `HanleColumn` (column_parser.cc:109-139): the value stored, or failure. -/
def handle {J : Type} (parse : Str → Option J) (c : Column J) (t : Str) : Option (Val J) :=
  match c.type with
  | .bool => some (.bool (t = "true".toList))
  | .double => some (.real t)
  | .int => some (.int (atoi t))
  | .json => some ((parse t).elim c.dflt .json)
  | .string => some (.str t)
  | .invalid => none

/-- The loop of `ParseContent` over the columns (column_parser.cc:89-100). -/
def fields {J : Type} (cf : Cfg J) : List (Str × Str) → Row J → Option (Row J)
  | [], out => some out
  | (h, t) :: r, out =>
    match cf.columns h with
    | none => fields cf r out
    | some c => (handle cf.parse c t).bind (fun v => fields cf r ((h, v) :: out))

/-- `ParseContent` (column_parser.cc:78-107): the row, if the line is good. -/
def parseContent {J : Type} (cf : Cfg J) (line : Str) : Option (Row J) :=
  (split line cf.delimiter false).bind (fun ts =>
    if ts.length ≠ cf.header.length then none else fields cf (cf.header.zip ts) [])

/-- The table of a `NameStructSource` (name_struct_source.h:55), latest first. -/
abbrev Table (J : Type) := List (Str × Row J)

/-- `OnContentParsed` (name_struct_source.h:43-51). -/
def store {J : Type} (cf : Cfg J) (tb : Table J) (r : Row J) : Table J :=
  match r.lookup cf.primary with
  | some (.str name) => (name, r) :: tb
  | _ => tb

/-- `OnReadData` (source.cc:77-81). -/
def onReadData {J : Type} (cf : Cfg J) (tb : Table J) (line : Str) : Table J :=
  match parseContent cf line with
  | some r => store cf tb r
  | none => tb

/-- `GetByName` (name_struct_source.h:27-34); `none` is the null object. -/
def getByName {J : Type} (tb : Table J) (name : Str) : Option (Row J) := tb.lookup name

/-- A path given to the loader: no such file, a file, or something that can be opened but whose
reading fails after some bytes (a directory, an I/O error). -/
inductive File where
  | missing
  | text (t : Str)
  | broken (t : Str)
deriving DecidableEq

/-- State of the stream and the line buffer in the loop of `Load` (file_loader.cc:43-48). -/
structure Rd where
  rest : Str
  /-- reading past `rest` fails -/
  err : Bool
  eof : Bool
  /-- `badbit` or `failbit` -/
  bad : Bool
  line : Str
deriving DecidableEq

/-- `std::getline`: up to the next newline or the end; nothing at all if the stream is not good. -/
def getline (s : Rd) : Rd :=
  if s.eof ∨ s.bad then { s with bad := true }
  else
    match s.rest.dropWhile (· ≠ '\n') with
    | [] => ⟨[], s.err, !s.err, s.err || s.rest.isEmpty, s.rest.takeWhile (· ≠ '\n')⟩
    | _ :: r => ⟨r, s.err, false, false, s.rest.takeWhile (· ≠ '\n')⟩

/-- `while (!ifs.eof()) { getline; OnReadData(line); }`, at most `fuel` iterations: the lines
delivered, and whether the loop ended. -/
def lineLoop : Nat → Rd → List Str × Bool
  | 0, s => ([], s.eof)
  | n + 1, s =>
    if s.eof then ([], true)
    else ((getline s).line :: (lineLoop n (getline s)).1, (lineLoop n (getline s)).2)

/-- The stream after `open`. -/
def openRd (t : Str) (err : Bool) : Rd := ⟨t, err, false, false, []⟩

/-- Iterations that are enough for a text. -/
def enough (t : Str) : Nat := t.length + 1

/-- The lines of one path; `none` if the loop does not end. -/
def fileLines : File → Option (List Str)
  | .missing => some []
  | .text t => some (lineLoop (enough t) (openRd t false)).1
  | .broken _ => none

/-- `Load` in line mode (file_loader.cc:24-70): all lines of all paths; the result is 0. -/
def load {J : Type} (cf : Cfg J) : List File → Table J → Option (Table J × Int)
  | [], tb => some (tb, 0)
  | f :: fs, tb => (fileLines f).bind (fun ls => load cf fs (ls.foldl (onReadData cf) tb))

end Ltio.Source
