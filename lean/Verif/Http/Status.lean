import Verif.Text.Split
/-
Model of the status line tables (net_io/codec/http/http_constants.cc:52-177).
-/
namespace Ltio.Http
open Ltio.Text

/-- `init_status_str` (http_constants.cc:53-97); entries not listed are "". -/
def descTable : List (Nat × String) :=
  [(100, "Continue"), (101, "Switching Protocols"), (200, "OK"), (201, "Created"),
   (202, "Accepted"), (203, "Non-authoritative Information"), (204, "No Content"),
   (205, "Reset Content"), (206, "Partial Content"), (300, "Multiple Choices"),
   (301, "Moved Permanently"), (302, "Found"), (303, "See Other"), (304, "Not Modified"),
   (305, "Use Proxy"), (307, "Temporary Redirect"), (400, "Bad Request"), (401, "Unauthorized"),
   (402, "Payment Required"), (403, "Forbidden"), (404, "Not Found"),
   (405, "Method Not Allowed"), (406, "Not Acceptable"), (407, "Proxy Authentication Required"),
   (408, "Request Timeout"), (409, "Conflict"), (410, "Gone"), (411, "Length Required"),
   (412, "Precondition Failed"), (413, "Payload Too Large"), (414, "Request-URI Too Long"),
   (415, "Unsupported Media Type"), (416, "Requested Range Not Satisfiable"),
   (417, "Expectation Failed"), (500, "Internal Server Error"), (501, "Not Implemented"),
   (502, "Bad Gateway"), (503, "Service Unavailable"), (504, "Gateway Timeout"),
   (505, "HTTP Version Not Supported")]

/-- `init_http_resp_table` without the prefix (http_constants.cc:99-144). -/
def lineTable : List (Nat × String) :=
  [(100, "100 Continue\r\n"), (101, "101 Switching Protocols\r\n"), (200, "200 OK\r\n"),
   (201, "201 Created\r\n"), (202, "202 Accepted\r\n"),
   (203, "203 Non-authoritative Information\r\n"), (204, "204 No Content\r\n"),
   (205, "205 Reset Content\r\n"), (206, "206 Partial Content\r\n"),
   (300, "300 Multiple Choices\r\n"), (301, "301 Moved Permanently\r\n"),
   (302, "302 Found\r\n"), (303, "303 See Other\r\n"), (304, "304 Not Modified\r\n"),
   (305, "305 Use Proxy\r\n"), (307, "307 Temporary Redirect\r\n"),
   (400, "400 Bad Request\r\n"), (401, "401 Unauthorized\r\n"),
   (402, "402 Payment Required\r\n"), (403, "403 Forbidden\r\n"), (404, "404 Not Found\r\n"),
   (405, "405 Method Not Allowed\r\n"), (406, "406 Not Acceptable\r\n"),
   (407, "407 Proxy Authentication Required\r\n"), (408, "408 Request Timeout\r\n"),
   (409, "409 Conflict\r\n"), (410, "410 Gone\r\n"), (411, "411 Length Required\r\n"),
   (412, "412 Precondition Failed\r\n"), (413, "413 Payload Too Large\r\n"),
   (414, "414 Request-URI Too Long\r\n"), (415, "415 Unsupported Media Type\r\n"),
   (416, "416 Requested Range Not Satisfiable\r\n"), (417, "417 Expectation Failed\r\n"),
   (500, "500 Internal Server Error\r\n"), (501, "501 Not Implemented\r\n"),
   (502, "502 Bad Gateway\r\n"), (503, "503 Service Unavailable\r\n"),
   (504, "504 Gateway Timeout\r\n"), (505, "505 HTTP Version Not Supported\r\n")]

/-- One entry of a `StatusTable` of 512 strings, all "" except those assigned. -/
def entry (t : List (Nat × String)) (code : Nat) : String := (t.lookup code).getD ""

/-- `HttpStatusUtil::Desc` (http_constants.cc:155-157). -/
def desc (code : Int) : String :=
  if 100 ≤ code ∧ code ≤ 511 then entry descTable code.toNat else entry descTable 500

/-- `fmt::format("HTTP/1.{:d} ", subversion)` for the two tables (lines 151-152). -/
def linePrefix (minor : Nat) : String := if minor = 0 then "HTTP/1.0 " else "HTTP/1.1 "

/-- `resp_hl[subversion][code]`; `none`: `resp_hl` has two tables only. -/
def tableLine (minor code : Nat) : Option String :=
  if minor ≤ 1 then
    some (if entry lineTable code = "" then "" else linePrefix minor ++ entry lineTable code)
  else none

/-- `HttpStatusUtil::RespHeadLine` (http_constants.cc:159-164). -/
def headLine (code : Int) (minor : Nat) : Option String :=
  if 100 ≤ code ∧ code ≤ 511 ∧ minor ≤ 1 then tableLine minor code.toNat
  else tableLine minor 500

/-! ### Specification -/

/-- RFC 7230: `HTTP/1.<minor> <code> <reason> CRLF`. -/
def statusLine (minor code : Nat) (reason : String) : String :=
  "HTTP/1." ++ toString minor ++ " " ++ toString code ++ " " ++ reason ++ "\r\n"

/-! ### C31 -/

/-- Both tables list the same codes, each with its digits. -/
theorem tables_agree : ∀ e ∈ lineTable, descTable.lookup e.1 ≠ none ∧ entry descTable e.1 ≠ "" ∧
    lineTable.lookup e.1 = some e.2 ∧
    e.2 = toString e.1 ++ " " ++ entry descTable e.1 ++ "\r\n" := by
  decide +kernel

theorem lookup_mem {t : List (Nat × String)} {k : Nat} {v : String} (h : t.lookup k = some v) :
    (k, v) ∈ t := by
  induction t with
  | nil => simp at h
  | cons e t ih =>
    obtain ⟨a, b⟩ := e
    rw [List.lookup_cons] at h
    split at h
    · rename_i hk
      simp only [beq_iff_eq] at hk
      simp only [Option.some.injEq] at h
      rw [hk, h]; simp
    · exact List.mem_cons_of_mem _ (ih h)

/-- The codes with a line of their own. -/
def known (code : Nat) : Bool := (lineTable.lookup code).isSome

theorem tableLine_known {minor code : Nat} (hm : minor ≤ 1) (hk : known code = true) :
    tableLine minor code = some (statusLine minor code (entry descTable code)) := by
  unfold known at hk
  obtain ⟨v, hv⟩ := Option.isSome_iff_exists.1 hk
  obtain ⟨-, h2, h3, h4⟩ := tables_agree _ (lookup_mem hv)
  simp only at h2 h3 h4
  have he : entry lineTable code = v := by unfold entry; rw [hv]; rfl
  have hne : v ≠ "" := by
    rw [h4]
    intro e
    have := congrArg String.toList e
    simp at this
  unfold tableLine
  rw [if_pos hm, he, if_neg hne, h4]
  have hp : linePrefix minor = "HTTP/1." ++ toString minor ++ " " := by
    have : minor = 0 ∨ minor = 1 := by omega
    rcases this with rfl | rfl <;> decide
  rw [hp]
  unfold statusLine
  simp only [String.append_assoc]

/-- **C31: status lines.** For every code of the table, and for every code outside 100..511
(answered as 500), both HTTP versions get a well-formed line. -/
theorem c31_status_line_partial (code : Int) (minor : Nat) (hm : minor ≤ 1) :
    (0 ≤ code → known code.toNat = true →
      headLine code minor = some (statusLine minor code.toNat (desc code))) ∧
    (code < 100 ∨ 511 < code →
      headLine code minor = some (statusLine minor 500 "Internal Server Error")) := by
  have h500 : tableLine minor 500 = some (statusLine minor 500 "Internal Server Error") := by
    have := tableLine_known (code := 500) hm (by decide)
    rw [this]; congr 1
  refine ⟨fun h0 hk => ?_, fun ho => ?_⟩
  · have hr : 100 ≤ code ∧ code ≤ 511 := by
      have hall : ∀ e ∈ lineTable, 100 ≤ e.1 ∧ e.1 ≤ 511 := by decide
      obtain ⟨v, hv⟩ := Option.isSome_iff_exists.1 (show (lineTable.lookup code.toNat).isSome from hk)
      have := hall _ (lookup_mem hv)
      simp only at this
      omega
    unfold headLine desc
    rw [if_pos ⟨hr.1, hr.2, hm⟩, if_pos hr]
    exact tableLine_known hm hk
  · unfold headLine
    rw [if_neg (by omega), h500]

/-- **C31 violated**: every code in 100..511 without a table entry (418, 422, 429, 451, ...) gets an
empty status line: the response starts with its headers. -/
theorem c31_missing_code_violated (code : Int) (minor : Nat) (hm : minor ≤ 1)
    (hr : 100 ≤ code ∧ code ≤ 511) (hk : known code.toNat = false) :
    headLine code minor = some "" := by
  unfold headLine
  rw [if_pos ⟨hr.1, hr.2, hm⟩]
  unfold tableLine entry
  unfold known at hk
  rw [if_pos hm]
  cases h : lineTable.lookup code.toNat with
  | none => rfl
  | some v => rw [h] at hk; simp at hk

/-- Any other minor version indexes outside the two tables. -/
theorem c31_minor_violated (code : Int) (minor : Nat) (hm : 2 ≤ minor) :
    headLine code minor = none := by
  unfold headLine tableLine
  rw [if_neg (by omega), if_neg (by omega)]

example : headLine 404 1 = some "HTTP/1.1 404 Not Found\r\n" := by decide
example : known 200 = true ∧ known 429 = false := by decide

end Ltio.Http
