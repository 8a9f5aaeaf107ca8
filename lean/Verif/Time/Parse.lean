import Verif.Time.Calendar

/-
Model of PR_ParseTimeString (base/time/nspr/prtime.cc:474-1181) for `default_to_gmt`, as used by
`Time::FromUTCString` (time.cc:323-342, C96).  The text is a list of characters without NUL; a read at
its end yields NUL, for which every test of the code is as for no character.  Times without a zone in
the default-local mode (`mktime`) are not modelled.
-/
namespace Ltio.Time.Parse
open Ltio.Time.Cal

/-- Tokens of zones (prtime.cc:423-440). -/
inductive Zone where
  | pst | pdt | mst | mdt | cst | cdt | est | edt | ast | nst | gmt | bst | met | eet | jst
deriving DecidableEq

/-- The words recognized. -/
inductive Word where
  | day (n : Int)
  | month (n : Int)
  | zone (z : Zone)
deriving DecidableEq

/-- The variables of the parser (prtime.cc:479-489): `none` is `TT_UNKNOWN`, months and week days are
counted from 0, numbers are -1 while unknown. -/
structure P where
  dotw : Option Int
  month : Option Int
  zone : Option Zone
  zoneOffset : Int
  date : Int
  year : Int
  hour : Int
  min : Int
  sec : Int
  usec : Int
deriving DecidableEq

/-- Their initial values. -/
def P.init : P := ⟨none, none, none, -1, -1, -1, -1, -1, -1, -1⟩

/-- Setters. -/
def P.setDay (p : P) (d : Int) : P := { p with dotw := some d }
def P.setMonth (p : P) (m : Int) : P := { p with month := some m }
def P.setZone (p : P) (z : Zone) : P := { p with zone := some z }
def P.setOffset (p : P) (o : Int) : P := { p with zoneOffset := o, zone := some .gmt }
def P.setTime (p : P) (h m s u : Int) : P := { p with hour := h, min := m, sec := s, usec := u }
def P.setDate (p : P) (d : Int) : P := { p with date := d }
def P.setYear (p : P) (y : Int) : P := { p with year := y }
def P.setYmd (p : P) (y m d : Int) : P := { p with year := y, month := some m, date := d }

/-- A decimal digit. -/
def isDig (c : Char) : Bool := '0' ≤ c && c ≤ '9'
/-- An ASCII letter (`isalpha` in the C locale). -/
def isLet (c : Char) : Bool := ('A' ≤ c && c ≤ 'Z') || ('a' ≤ c && c ≤ 'z')
/-- The tests `c == 'x' || c == 'X'` compare lower case letters. -/
def lo (c : Char) : Char := if 'A' ≤ c ∧ c ≤ 'Z' then Char.ofNat (c.toNat + 32) else c
/-- `c - '0'`. -/
def dv (c : Char) : Int := (c.toNat : Int) - 48
/-- Whether a text begins with a digit. -/
def digFirst : List Char → Bool
  | c :: _ => isDig c
  | [] => false
/-- Whether a text begins with a letter. -/
def letFirst : List Char → Bool
  | c :: _ => isLet c
  | [] => false

/-- The three letter words (prtime.cc:507-664), in lower case; each is tried on its first letters. -/
def word : Char → Char → Char → Option Word
  | 'a', 'p', 'r' => some (.month 3) | 'a', 's', 't' => some (.zone .ast)
  | 'a', 'u', 'g' => some (.month 7) | 'b', 's', 't' => some (.zone .bst)
  | 'c', 'd', 't' => some (.zone .cdt) | 'c', 's', 't' => some (.zone .cst)
  | 'd', 'e', 'c' => some (.month 11) | 'e', 'd', 't' => some (.zone .edt)
  | 'e', 'e', 't' => some (.zone .eet) | 'e', 's', 't' => some (.zone .est)
  | 'f', 'e', 'b' => some (.month 1) | 'f', 'r', 'i' => some (.day 5)
  | 'g', 'm', 't' => some (.zone .gmt) | 'j', 'a', 'n' => some (.month 0)
  | 'j', 's', 't' => some (.zone .jst) | 'j', 'u', 'l' => some (.month 6)
  | 'j', 'u', 'n' => some (.month 5) | 'm', 'a', 'r' => some (.month 2)
  | 'm', 'a', 'y' => some (.month 4) | 'm', 'd', 't' => some (.zone .mdt)
  | 'm', 'e', 't' => some (.zone .met) | 'm', 'o', 'n' => some (.day 1)
  | 'm', 's', 't' => some (.zone .mst) | 'n', 'o', 'v' => some (.month 10)
  | 'n', 's', 't' => some (.zone .nst) | 'o', 'c', 't' => some (.month 9)
  | 'p', 'd', 't' => some (.zone .pdt) | 'p', 's', 't' => some (.zone .pst)
  | 's', 'a', 't' => some (.day 6) | 's', 'e', 'p' => some (.month 8)
  | 's', 'u', 'n' => some (.day 0) | 't', 'h', 'u' => some (.day 4)
  | 't', 'u', 'e' => some (.day 2) | 'w', 'e', 'd' => some (.day 3)
  | _, _, _ => none

/-- A word sets its variable if that is unknown. -/
def P.see (p : P) : Word → P
  | .day n => if p.dotw = none then p.setDay n else p
  | .month n => if p.month = none then p.setMonth n else p
  | .zone z => if p.zone = none then p.setZone z else p

/-- The cases of the `switch` for letters (prtime.cc:507-664). -/
def letters (p : P) : List Char → P
  | a :: b :: c :: _ =>
    if lo a = 'u' then (if p.zone = none ∧ lo b = 't' ∧ isLet c = false then p.setZone .gmt else p)
    else (word (lo a) (lo b) (lo c)).elim p p.see
  | [a, b] => if lo a = 'u' ∧ p.zone = none ∧ lo b = 't' then p.setZone .gmt else p
  | _ => p

/-- The number of one or two digits. -/
def num2 : List Char → Int
  | [a] => dv a
  | [a, b] => dv a * 10 + dv b
  | _ => 0

/-- The case of `+` and `-` (prtime.cc:666-708), on the text after the sign: the variables; the sign is
moved over in any case. -/
def sign (p : P) (s : Int) (t : List Char) : P :=
  if p.zoneOffset ≠ -1 then p
  else if p.zone ≠ none ∧ p.zone ≠ some .gmt then p
  else
    match t.takeWhile isDig with
    | [a, b, c, d] => p.setOffset (((dv a * 10 + dv b) * 60 + (dv c * 10 + dv d)) * s)
    | [a, b] => p.setOffset ((dv a * 10 + dv b) * 60 * s)
    | [a] => p.setOffset (dv a * 60 * s)
    | _ => p

/-- Microseconds of the digits of a fraction (prtime.cc:784-793). -/
def fraction (ds : List Char) : Int :=
  (ds.take 6).foldl (fun n c => n * 10 + dv c) 0 * 10 ^ (6 - ds.length)

/-- The hour after looking for AM or PM in the text after the time (prtime.cc:801-818). -/
def amPm (h : Int) (t : List Char) : Int :=
  if h ≤ 12 then
    match t.dropWhile (fun c => c = ' ' || c = '\t') with
    | a :: b :: _ =>
      if lo a = 'p' ∧ lo b = 'm' then (if h = 12 then 12 else h + 12)
      else if h = 12 ∧ lo a = 'a' ∧ lo b = 'm' then 0
      else h
    | _ => h
  else h

/-- A fraction: its microseconds (-1 if there is none) and the text after it (prtime.cc:779-795). -/
def frac : List Char → Int × List Char
  | '.' :: t => (fraction (t.takeWhile isDig), t.dropWhile isDig)
  | t => (-1, t)

/-- The end of a time (prtime.cc:779-825): fraction, `Z`, AM and PM. -/
def timeEnd (p : P) (h m s : Int) (t : List Char) : P × List Char :=
  match (frac t).2 with
  | 'Z' :: _ => ((p.setZone .gmt).setTime h m s (frac t).1, (frac t).2)
  | _ => (p.setTime (amPm h (frac t).2) m s (frac t).1, (frac t).2)

/-- The seconds of a time (prtime.cc:760-778). -/
def timeSec (p : P) (h m : Int) (t : List Char) : P × List Char :=
  let t3 := match t with
    | ':' :: r => r
    | r => r
  if (t3.takeWhile isDig).length = 0 then timeEnd p h m (-1) (t3.dropWhile isDig)
  else if (t3.takeWhile isDig).length > 2 then (p, t3)
  else timeEnd p h m (num2 (t3.takeWhile isDig)) (t3.dropWhile isDig)

/-- A time, from its digits and the text after the colon (prtime.cc:730-826): the variables and the
text from which the token is skipped.  `whole` is the text of the token. -/
def time (p : P) (whole ds t : List Char) : P × List Char :=
  if p.hour ≥ 0 ∧ p.min ≥ 0 then (p, whole)
  else if ds.length > 2 then (p, whole)
  else if (t.takeWhile isDig).length = 0 ∨ (t.takeWhile isDig).length > 2 then (p, t)
  else timeSec p (num2 ds) (num2 (t.takeWhile isDig)) (t.dropWhile isDig)

/-- One or two digits: the number and the text after it (prtime.cc:858-861). -/
def two : List Char → Option (Int × List Char)
  | a :: t =>
    if isDig a then
      match t with
      | b :: u => if isDig b then some (dv a * 10 + dv b, u) else some (dv a, t)
      | [] => some (dv a, t)
    else none
  | [] => none

/-- The third and the fourth digit of a number (prtime.cc:843-849): none, or both. -/
def four (n : Int) : List Char → Option (Int × List Char)
  | c :: t =>
    if isDig c then
      match t with
      | d :: u => if isDig d then some ((n * 10 + dv c) * 10 + dv d, u) else none
      | [] => none
    else some (n, c :: t)
  | [] => some (n, [])

/-- The first number: one, two or four digits (prtime.cc:838-850). -/
def num1 : List Char → Option (Int × List Char)
  | a :: b :: t => if isDig b then four (dv a * 10 + dv b) t else some (dv a, b :: t)
  | [a] => some (dv a, [])
  | [] => none

/-- A `/` or `-` (prtime.cc:852-854). -/
def slash : List Char → Option (List Char)
  | c :: t => if c = '/' ∨ c = '-' then some t else none
  | [] => none

/-- A fifth digit (prtime.cc:882-883). -/
def five (r : Int × List Char) : Int × List Char :=
  match r.2 with
  | c :: t => if isDig c then (r.1 * 10 + dv c, t) else r
  | [] => r

/-- The third number: one, two, four or five digits (prtime.cc:870-884); `four` leaves the text alone
if there is no third digit. -/
def num3 (t : List Char) : Option (Int × List Char) :=
  (two t).bind (fun r =>
    if digFirst r.2 then (four r.1 r.2).map five else some r)

/-- What may follow the third number (prtime.cc:886-892). -/
def okAfter : List Char → Bool
  | 'T' :: t => digFirst t
  | c :: _ => !(isDig c || isLet c)
  | [] => true

/-- Three numbers with `/` or `-` between them, and the text after (prtime.cc:836-892). -/
def triple (s : List Char) : Option (Int × Int × Int × List Char) :=
  (num1 s).bind (fun a => (slash a.2).bind (fun t => (two t).bind (fun b => (slash b.2).bind (fun u =>
    (num3 u).bind (fun c => if okAfter c.2 then some (a.1, b.1, c.1, c.2) else none)))))

/-- Two-digit years (prtime.cc:905-908, 923-926). -/
def century (y : Int) : Int := if y < 70 then y + 2000 else if y < 100 then y + 1900 else y

/-- What the three numbers are (prtime.cc:899-943). -/
def dateNums (p : P) (whole : List Char) (n1 n2 n3 : Int) (t : List Char) : P × List Char :=
  if n1 > 31 ∨ n1 = 0 then
    if n2 > 12 ∨ n3 > 31 then (p, whole) else (p.setYmd (century n1) (n2 - 1) n3, t)
  else if n1 > 12 ∧ n2 > 12 then (p, t)
  else if n1 > 12 then (p.setYmd (century n3) (n2 - 1) n1, t)
  else (p.setYmd (century n3) (n1 - 1) n2, t)

/-- A number that is neither a time nor a date of three (prtime.cc:944-988). -/
def plain (p : P) (ds t : List Char) : P :=
  if letFirst t then p
  else
    match ds with
    | [a, b, c, d, e] =>
      if p.year < 0 then
        p.setYear (dv a * 10000 + dv b * 1000 + dv c * 100 + dv d * 10 + dv e) else p
    | [a, b, c, d] =>
      if p.year < 0 then p.setYear (dv a * 1000 + dv b * 100 + dv c * 10 + dv d) else p
    | [a, b] =>
      if p.date < 0 ∧ dv a * 10 + dv b < 32 then p.setDate (dv a * 10 + dv b)
      else if p.year < 0 then p.setYear (century (dv a * 10 + dv b))
      else p
    | [a] => if p.date < 0 then p.setDate (dv a) else p
    | _ => p

/-- Whether a text begins with a `/` or `-` and a digit. -/
def slashDig : List Char → Bool
  | c :: t => (c = '/' || c = '-') && digFirst t
  | [] => false

/-- The case of a digit (prtime.cc:710-990). -/
def number (p : P) (s : List Char) : P × List Char :=
  match s.dropWhile isDig with
  | ':' :: t => time p s (s.takeWhile isDig) t
  | t =>
    if slashDig t then
      if p.month ≠ none then (p, s)
      else (triple s).elim (p, s) (fun r => dateNums p s r.1 r.2.1 r.2.2.1 r.2.2.2)
    else (plain p (s.takeWhile isDig) t, s)

/-- The `switch` (prtime.cc:506-991): the variables and the text from which the token is skipped. -/
def token (p : P) (s : List Char) : P × List Char :=
  match s with
  | c :: t =>
    if isDig c then number p s
    else if c = '+' then (sign p 1 t, t)
    else if c = '-' then (sign p (-1) t, t)
    else (letters p s, s)
  | [] => (p, s)

/-- Characters at which a token ends (prtime.cc:997-1001). -/
def isEnd (c : Char) : Bool :=
  c = ' ' || c = '\t' || c = ',' || c = ';' || c = '-' || c = '+' || c = '/' || c = '(' || c = ')' ||
    c = '[' || c = ']'

/-- Skipping to the end of a token, with the character before (prtime.cc:997-1002). -/
def skipToken : Option Char → List Char → Option Char × List Char
  | prev, [] => (prev, [])
  | prev, c :: t =>
    if isEnd c ∨ (c = 'T' ∧ digFirst t = true) then (prev, c :: t) else skipToken (some c) t

/-- Characters skipped between tokens (prtime.cc:1005-1008). -/
def isSep (c : Char) : Bool :=
  c = ' ' || c = '\t' || c = ',' || c = ';' || c = '/' || c = '(' || c = ')' || c = '[' || c = ']'

/-- Skipping to the next token (prtime.cc:1003-1018). -/
def skipMore (year : Int) : Option Char → List Char → List Char
  | _, [] => []
  | prev, c :: t =>
    if isSep c then skipMore year (some c) t
    else if c = '-' ∧ ((prev.any isLet = true ∧ year < 0) ∨ digFirst t = false) then
      skipMore year (some c) t
    else c :: t

/-- A `T` before a digit is skipped (prtime.cc:1020-1022). -/
def skipT : List Char → List Char
  | 'T' :: t => if digFirst t then t else 'T' :: t
  | t => t

/-- The last of the characters moved over, if any. -/
def before (s rest : List Char) (prev : Option Char) : Option Char :=
  ((s.take (s.length - rest.length)).getLast?).or prev

/-- A round of the loop (prtime.cc:501-1023): variables, character before, text left. -/
def round (p : P) (prev : Option Char) (s : List Char) : P × Option Char × List Char :=
  let r := token p s
  let k := skipToken (before s r.2 prev) r.2
  let u := skipMore r.1.year k.1 k.2
  (r.1, before s (skipT u) prev, skipT u)

/-- The loop: 1001 rounds at most (prtime.cc:501-504). -/
def loop : Nat → P → Option Char → List Char → Option P
  | _, p, _, [] => some p
  | 0, _, _, _ => none
  | n + 1, p, prev, s => loop n (round p prev s).1 (round p prev s).2.1 (round p prev s).2.2

/-- Minutes of a zone and of its summer time (prtime.cc:1026-1084). -/
def zoneMinutes : Zone → Int
  | .pst => -480 | .pdt => -480 + 60 | .mst => -420 | .mdt => -420 + 60 | .cst => -360
  | .cdt => -360 + 60 | .est => -300 | .edt => -300 + 60 | .ast => -240 | .nst => -210 | .gmt => 0
  | .bst => 60 | .met => 60 | .eet => 120 | .jst => 540

/-- The offset in minutes, in the default-GMT mode (prtime.cc:1025-1086, 1112-1116). -/
def offsetOf (p : P) : Int :=
  if p.zoneOffset = -1 then p.zone.elim 0 zoneMinutes else p.zoneOffset

/-- A number or 0 if it is unknown (prtime.cc:1093-1100). -/
def known (n : Int) : Int := if n ≠ -1 then n else 0

/-- The exploded time of the variables; `none` if it cannot be parsed (prtime.cc:1088-1110). -/
def finish (p : P) : Option Exploded :=
  match p.month with
  | none => none
  | some m =>
    if p.date = -1 ∨ p.year = -1 ∨ p.year > 32767 then none
    else some ⟨known p.usec, known p.sec, known p.min, known p.hour, known p.date, m, p.year,
      p.dotw.getD 0, 0, 0⟩

/-- `result->tm_params` (prtime.cc:1176-1177). -/
def shift (e : Exploded) (minutes : Int) : Exploded := { e with offset := minutes * 60 }

/-- `PR_ParseTimeString(s, PR_TRUE, ..)`: microseconds from 1970. -/
def parse (s : List Char) : Option Int :=
  (loop 1001 P.init none s).bind (fun p =>
    (finish p).map (fun e => implode (shift (normalize e) (offsetOf p))))

/-- `FromUTCString` (time.cc:323-342): microseconds of a `Time`, from 1601. -/
def fromUTCString (s : List Char) : Option Int :=
  if s = [] then none else (parse s).map (fun t => 11644473600000000 + t)

end Ltio.Time.Parse
