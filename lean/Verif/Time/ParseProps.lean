import Verif.Time.Parse
import Mathlib.Tactic.IntervalCases
set_option linter.unusedSimpArgs false

/-
C96: dates in the three formats of HTTP (RFC 1123, RFC 850, asctime) and in ISO 8601 are parsed to
their instants.
-/
namespace Ltio.Time.Parse
open Ltio.Time.Cal

/-! ### The formats -/

/-- The digit of a number below ten. -/
def dc (k : Nat) : Char := Char.ofNat (48 + k)
/-- Two digits. -/
def d2 (n : Nat) : List Char := [dc (n / 10), dc (n % 10)]
/-- Four digits. -/
def d4 (n : Nat) : List Char := [dc (n / 1000), dc (n / 100 % 10), dc (n / 10 % 10), dc (n % 10)]
/-- The number that digits spell. -/
def val (ds : List Nat) : Nat := ds.foldl (fun n k => n * 10 + k) 0
/-- The microseconds of a fraction of a second: its digits after the point, rounded down. -/
def micros (ds : List Nat) : Nat := val ds * 1000000 / 10 ^ ds.length

/-- Names of months. -/
def monthName : Nat → List Char
  | 0 => ['J', 'a', 'n'] | 1 => ['F', 'e', 'b'] | 2 => ['M', 'a', 'r'] | 3 => ['A', 'p', 'r']
  | 4 => ['M', 'a', 'y'] | 5 => ['J', 'u', 'n'] | 6 => ['J', 'u', 'l'] | 7 => ['A', 'u', 'g']
  | 8 => ['S', 'e', 'p'] | 9 => ['O', 'c', 't'] | 10 => ['N', 'o', 'v'] | _ => ['D', 'e', 'c']

/-- Short names of week days. -/
def dayName : Nat → List Char
  | 0 => ['S', 'u', 'n'] | 1 => ['M', 'o', 'n'] | 2 => ['T', 'u', 'e'] | 3 => ['W', 'e', 'd']
  | 4 => ['T', 'h', 'u'] | 5 => ['F', 'r', 'i'] | _ => ['S', 'a', 't']

/-- Long names of week days. -/
def longName : Nat → List Char
  | 0 => ['S', 'u', 'n', 'd', 'a', 'y'] | 1 => ['M', 'o', 'n', 'd', 'a', 'y']
  | 2 => ['T', 'u', 'e', 's', 'd', 'a', 'y'] | 3 => ['W', 'e', 'd', 'n', 'e', 's', 'd', 'a', 'y']
  | 4 => ['T', 'h', 'u', 'r', 's', 'd', 'a', 'y'] | 5 => ['F', 'r', 'i', 'd', 'a', 'y']
  | _ => ['S', 'a', 't', 'u', 'r', 'd', 'a', 'y']

/-- `hh:mm:ss`. -/
def clock (h m s : Nat) : List Char := d2 h ++ ':' :: (d2 m ++ ':' :: d2 s)

/-- `Sun, 06 Nov 1994 08:49:37 GMT`. -/
def rfc1123 (w d mon y h m s : Nat) (zone : List Char) : List Char :=
  dayName w ++ ',' :: ' ' :: (d2 d ++ ' ' :: (monthName mon ++ ' ' :: (d4 y ++ ' ' ::
    (clock h m s ++ ' ' :: zone))))

/-- `Sunday, 06-Nov-94 08:49:37 GMT`. -/
def rfc850 (w d mon y h m s : Nat) : List Char :=
  longName w ++ ',' :: ' ' :: (d2 d ++ '-' :: (monthName mon ++ '-' :: (d2 y ++ ' ' ::
    (clock h m s ++ ' ' :: ['G', 'M', 'T']))))

/-- `Sun Nov  6 08:49:37 1994`. -/
def asctime (w d mon y h m s : Nat) : List Char :=
  dayName w ++ ' ' :: (monthName mon ++ ' ' :: ((if d < 10 then [' ', dc d] else d2 d) ++ ' ' ::
    (clock h m s ++ ' ' :: d4 y)))

/-- `1994-11-06T08:49:37.123456Z`, with any number of digits after the point. -/
def iso8601 (y mon d h m s : Nat) (fr : List Nat) : List Char :=
  d4 y ++ '-' :: (d2 (mon + 1) ++ '-' :: (d2 d ++ 'T' :: (clock h m s ++ '.' :: (fr.map dc ++ ['Z']))))

/-- `+hhmm` or `-hhmm`. -/
def numericZone (neg : Bool) (hh mm : Nat) : List Char :=
  (if neg then '-' else '+') :: (d2 hh ++ d2 mm)

/-! ### Steps -/

/-- A round of the loop takes variables and text to variables and text. -/
def Step (p : P) (s : List Char) (p' : P) (s' : List Char) : Prop :=
  ∀ n prev, ∃ q, loop (n + 1) p prev s = loop n p' q s'

/-- The text left after a round, if the character before the text skipped is `pv`. -/
def left (p : P) (s : List Char) (pv : Option Char) : List Char :=
  skipT (skipMore (token p s).1.year (skipToken pv (token p s).2).1 (skipToken pv (token p s).2).2)

theorem step_of {p : P} {s : List Char} {p' : P} {s' : List Char} (hs : s ≠ []) (h1 : (token p s).1 = p')
    (h2 : ∀ pv, left p s pv = s') : Step p s p' s' := by
  intro n prev
  cases s with
  | nil => exact absurd rfl hs
  | cons c t =>
    refine ⟨(round p prev (c :: t)).2.1, ?_⟩
    simp only [loop]
    have e1 : (round p prev (c :: t)).1 = p' := h1
    have e2 : (round p prev (c :: t)).2.2 = s' := h2 _
    rw [e1, e2]

theorem dc_facts : ∀ k < 10, isDig (dc k) = true ∧ dv (dc k) = k := by decide

theorem dig_facts {c : Char} (h : isDig c = true) :
    isEnd c = false ∧ isSep c = false ∧ c ≠ 'T' ∧ c ≠ '-' ∧ c ≠ '+' ∧ isLet c = false ∧ c ≠ ':' ∧ c ≠ '.' ∧
    c ≠ ' ' ∧ c ≠ '\t' ∧ lo c = c ∧ c ≠ '/' ∧ c ≠ 'Z' := by
  simp only [isDig, Bool.and_eq_true, decide_eq_true_eq, Char.le_def] at h
  have h1 : (48 : Nat) ≤ c.val.toNat := by have := h.1; exact this
  have h2 : c.val.toNat ≤ 57 := by have := h.2; exact this
  have key : ∀ n, 48 ≤ n → n ≤ 57 → c.val.toNat = n → c = Char.ofNat n := by
    intro n _ _ hn
    have : c = Char.ofNat c.toNat := (Char.ofNat_toNat c).symm
    rw [this]; congr 1
  generalize hn : c.val.toNat = n at h1 h2
  have := key n h1 h2 hn
  subst this
  clear key hn h
  interval_cases n <;> decide

/-- What begins the next token: neither a separator nor a dash nor a `T`. -/
def Starts (t : List Char) : Prop := ∃ c u, t = c :: u ∧ isSep c = false ∧ c ≠ '-' ∧ c ≠ 'T'

theorem skipMore_starts {t : List Char} (h : Starts t) (y : Int) (pv : Option Char) :
    skipT (skipMore y pv t) = t := by
  obtain ⟨c, u, rfl, h1, h2, h3⟩ := h
  simp only [skipMore, h1, Bool.false_eq_true, if_false, h2, false_and]
  unfold skipT
  split
  · rename_i h; simp only [List.cons.injEq] at h; exact absurd h.1 h3
  · rfl

theorem skip_space {t : List Char} (h : Starts t) (y : Int) (pv : Option Char) :
    skipT (skipMore y pv (' ' :: t)) = t := by
  have : skipMore y pv (' ' :: t) = skipMore y (some ' ') t := by
    simp [skipMore, isSep]
  rw [this, skipMore_starts h]

theorem skip_comma {t : List Char} (h : Starts t) (y : Int) (pv : Option Char) :
    skipT (skipMore y pv (',' :: ' ' :: t)) = t := by
  have : skipMore y pv (',' :: ' ' :: t) = skipMore y (some ' ') t := by
    simp [skipMore, isSep]
  rw [this, skipMore_starts h]

theorem starts_dig {c : Char} {t : List Char} (h : isDig c = true) : Starts (c :: t) := by
  have := dig_facts h
  exact ⟨c, t, rfl, this.2.1, this.2.2.2.1, this.2.2.1⟩

/-- Facts to compute with a digit. -/
theorem dig_simp {c : Char} (h : isDig c = true) : isEnd c = false ∧ (c = 'T') = False := by
  have := dig_facts h
  exact ⟨this.1, by simp [this.2.2.1]⟩

theorem lt_of_day {w : Nat} (h : w < 7) : w = 0 ∨ w = 1 ∨ w = 2 ∨ w = 3 ∨ w = 4 ∨ w = 5 ∨ w = 6 := by omega

theorem step_day {p : P} (hp : p.dotw = none) {w : Nat} (hw : w < 7) {t : List Char} (ht : Starts t) :
    Step p (dayName w ++ ',' :: ' ' :: t) (p.setDay w) t ∧
    Step p (dayName w ++ ' ' :: t) (p.setDay w) t ∧
    Step p (longName w ++ ',' :: ' ' :: t) (p.setDay w) t := by
  refine ⟨?_, ?_, ?_⟩
  all_goals
    rcases lt_of_day hw with rfl | rfl | rfl | rfl | rfl | rfl | rfl
  all_goals
    refine step_of (by simp [dayName, longName]) ?_ ?_
    · simp [dayName, longName, token, isDig, letters, lo, word, P.see, hp]
    · intro pv
      simp [dayName, longName, left, token, isDig, skipToken, isEnd, digFirst, skip_comma ht, skip_space ht]

theorem month_lt {m : Nat} (h : m < 12) : m = 0 ∨ m = 1 ∨ m = 2 ∨ m = 3 ∨ m = 4 ∨ m = 5 ∨ m = 6 ∨
    m = 7 ∨ m = 8 ∨ m = 9 ∨ m = 10 ∨ m = 11 := by omega

theorem step_month {p : P} (hp : p.month = none) {m : Nat} (hm : m < 12) {t : List Char} (ht : Starts t) :
    Step p (monthName m ++ ' ' :: t) (p.setMonth m) t := by
  rcases month_lt hm with rfl | rfl | rfl | rfl | rfl | rfl | rfl | rfl | rfl | rfl | rfl | rfl
  all_goals
    refine step_of (by simp [monthName]) ?_ ?_
    · simp [monthName, token, isDig, letters, lo, word, P.see, hp]
    · intro pv
      simp [monthName, left, token, isDig, skipToken, isEnd, digFirst, skip_space ht]

/-- A month and two spaces (asctime). -/
theorem step_month2 {p : P} (hp : p.month = none) {m : Nat} (hm : m < 12) {t : List Char} (ht : Starts t) :
    Step p (monthName m ++ ' ' :: ' ' :: t) (p.setMonth m) t := by
  have sp : ∀ y pv, skipT (skipMore y pv (' ' :: ' ' :: t)) = t := by
    intro y pv
    have : skipMore y pv (' ' :: ' ' :: t) = skipMore y (some ' ') (' ' :: t) := by simp [skipMore, isSep]
    rw [this, skip_space ht]
  rcases month_lt hm with rfl | rfl | rfl | rfl | rfl | rfl | rfl | rfl | rfl | rfl | rfl | rfl
  all_goals
    refine step_of (by simp [monthName]) ?_ ?_
    · simp [monthName, token, isDig, letters, lo, word, P.see, hp]
    · intro pv
      simp [monthName, left, token, isDig, skipToken, isEnd, digFirst, sp]

/-- A month with a dash on both sides, before the year is known (RFC 850). -/
theorem step_month_dash {p : P} (hp : p.month = none) (hy : p.year < 0) {m : Nat} (hm : m < 12) {c : Char}
    {t : List Char} (hc : isDig c = true) :
    Step p (monthName m ++ '-' :: c :: t) (p.setMonth m) (c :: t) := by
  have hs := starts_dig (t := t) hc
  have hy' : ∀ k, (p.setMonth k).year = p.year := fun _ => rfl
  have key : ∀ l, isLet l = true → skipT (skipMore p.year (some l) ('-' :: c :: t)) = c :: t := by
    intro l hl
    have : skipMore p.year (some l) ('-' :: c :: t) = skipMore p.year (some '-') (c :: t) := by
      simp [skipMore, isSep, hl, hy]
    rw [this, skipMore_starts hs]
  rcases month_lt hm with rfl | rfl | rfl | rfl | rfl | rfl | rfl | rfl | rfl | rfl | rfl | rfl
  all_goals
    refine step_of (by simp [monthName]) ?_ ?_
    · simp [monthName, token, isDig, letters, lo, word, P.see, hp]
    · intro pv
      simp [monthName, left, token, isDig, skipToken, isEnd, digFirst, letters, lo, word, P.see, hp, hy']
      exact key _ (by decide)

/-- The end of a text of digits. -/
theorem plain_step {p : P} {ds : List Char} {e : Char} {u t : List Char} (hds : ∀ c ∈ ds, isDig c = true)
    (hne : ds ≠ []) (he : isEnd e = true) (hsl : slashDig (e :: u) = false)
    (hm : ∀ y pv, skipT (skipMore y pv (e :: u)) = t) :
    Step p (ds ++ e :: u) (plain p ds (e :: u)) t := by
  have hed : isDig e = false := by
    cases hh : isDig e with
    | false => rfl
    | true => rw [(dig_facts hh).1] at he; simp at he
  have hec : e ≠ ':' := by rintro rfl; simp [isEnd] at he
  have htw : (ds ++ e :: u).takeWhile isDig = ds := by
    rw [List.takeWhile_append_of_pos hds]; simp [List.takeWhile_cons, hed]
  have hdw : (ds ++ e :: u).dropWhile isDig = e :: u := by
    rw [List.dropWhile_append_of_pos hds]; simp [List.dropWhile_cons, hed]
  have htok : token p (ds ++ e :: u) = (plain p ds (e :: u), ds ++ e :: u) := by
    cases ds with
    | nil => exact absurd rfl hne
    | cons a r =>
      have ha := hds a (by simp)
      simp only [List.cons_append] at htw hdw ⊢
      simp only [token, ha, if_true, number, hdw, htw]
      split
      · rename_i h; simp only [List.cons.injEq] at h; exact absurd h.1 hec
      · rw [if_neg (by simp [hsl])]
  have hst : ∀ (ds : List Char), (∀ c ∈ ds, isDig c = true) → ∀ pv, (skipToken pv (ds ++ e :: u)).2 = e :: u := by
    intro ds
    induction ds with
    | nil => intro _ pv; simp [skipToken, he]
    | cons a r ih =>
      intro h pv
      have ha := dig_facts (h a (by simp))
      simp only [List.cons_append, skipToken, ha.1, Bool.false_eq_true, ha.2.2.1, false_and, or_self, if_false]
      exact ih (fun c hc => h c (by simp [hc])) _
  refine step_of (by simp) (by rw [htok]) ?_
  intro pv
  simp only [left, htok, hst ds hds]
  exact hm _ _

theorem dd_digs {n : Nat} (h : n < 100) : ∀ c ∈ d2 n, isDig c = true := by
  intro c hc
  simp only [d2, List.mem_cons, List.not_mem_nil, or_false] at hc
  rcases hc with rfl | rfl
  · exact (dc_facts _ (by omega)).1
  · exact (dc_facts _ (by omega)).1

theorem dddd_digs {n : Nat} (h : n < 10000) : ∀ c ∈ d4 n, isDig c = true := by
  intro c hc
  simp only [d4, List.mem_cons, List.not_mem_nil, or_false] at hc
  rcases hc with rfl | rfl | rfl | rfl <;> exact (dc_facts _ (by omega)).1

theorem slash_space (u : List Char) : slashDig (' ' :: u) = false := by simp [slashDig]

/-- A day of month of two digits, before a space or a dash and a letter. -/
theorem step_date {p : P} (hp : p.date < 0) {d : Nat} (hd : d < 32) {t : List Char} (ht : Starts t) :
    Step p (d2 d ++ ' ' :: t) (p.setDate d) t := by
  have h := plain_step (p := p) (dd_digs (n := d) (by omega)) (by simp [d2]) (e := ' ') (u := t) (t := t)
    (by decide) (slash_space t) (fun y pv => skip_space ht y pv)
  have e : plain p (d2 d) (' ' :: t) = p.setDate d := by
    have h1 := (dc_facts (d / 10) (by omega)).2
    have h2 := (dc_facts (d % 10) (by omega)).2
    simp only [plain, letFirst, isLet, d2, h1, h2]
    have e2 : ((d / 10 : Nat) : Int) * 10 + ((d % 10 : Nat) : Int) = d := by omega
    rw [e2]
    simp [hp]
    omega
  rwa [e] at h

theorem step_date_dash {p : P} (hp : p.date < 0) {d : Nat} (hd : d < 32) {c : Char} {t : List Char}
    (hc : isDig c = false) (ht : Starts (c :: t)) :
    Step p (d2 d ++ '-' :: c :: t) (p.setDate d) (c :: t) := by
  have h := plain_step (p := p) (dd_digs (n := d) (by omega)) (by simp [d2]) (e := '-') (u := c :: t)
    (t := c :: t) (by decide) (by simp [slashDig, digFirst, hc]) (by
      intro y pv
      have : skipMore y pv ('-' :: c :: t) = skipMore y (some '-') (c :: t) := by
        simp [skipMore, isSep, digFirst, hc]
      rw [this, skipMore_starts ht])
  have e : plain p (d2 d) ('-' :: c :: t) = p.setDate d := by
    have h1 := (dc_facts (d / 10) (by omega)).2
    have h2 := (dc_facts (d % 10) (by omega)).2
    simp only [plain, letFirst, isLet, d2, h1, h2]
    have e2 : ((d / 10 : Nat) : Int) * 10 + ((d % 10 : Nat) : Int) = d := by omega
    rw [e2]
    simp [hp]
    omega
  rwa [e] at h

/-- A day of month of one digit. -/
theorem step_date1 {p : P} (hp : p.date < 0) {d : Nat} (hd : d < 10) {t : List Char} (ht : Starts t) :
    Step p (dc d :: ' ' :: t) (p.setDate d) t := by
  have h := plain_step (p := p) (ds := [dc d]) (by intro c hc; rw [List.mem_singleton.1 hc]; exact (dc_facts d hd).1)
    (by simp) (e := ' ') (u := t) (t := t) (by decide) (slash_space t) (fun y pv => skip_space ht y pv)
  have e : plain p [dc d] (' ' :: t) = p.setDate d := by
    simp only [plain, letFirst, isLet, (dc_facts d hd).2]
    simp [hp]
  rwa [e] at h

theorem d4_val {y : Nat} (hy : y < 10000) : dv (dc (y / 1000)) * 1000 + dv (dc (y / 100 % 10)) * 100 +
    dv (dc (y / 10 % 10)) * 10 + dv (dc (y % 10)) = y := by
  rw [(dc_facts _ (by omega)).2, (dc_facts _ (by omega)).2, (dc_facts _ (by omega)).2,
    (dc_facts _ (by omega)).2]
  omega

/-- A year of four digits. -/
theorem step_year {p : P} (hp : p.year < 0) {y : Nat} (hy : y < 10000) {t : List Char} (ht : Starts t) :
    Step p (d4 y ++ ' ' :: t) (p.setYear y) t := by
  have h := plain_step (p := p) (dddd_digs hy) (by simp [d4]) (e := ' ') (u := t) (t := t)
    (by decide) (slash_space t) (fun y pv => skip_space ht y pv)
  have e : plain p (d4 y) (' ' :: t) = p.setYear y := by
    simp only [plain, letFirst, isLet, d4, d4_val hy]
    simp [hp]
  rwa [e] at h

/-- A year of two digits, when the day of month is known. -/
theorem step_year2 {p : P} (hd : 0 ≤ p.date) (hp : p.year < 0) {y : Nat} (hy : y < 100) {t : List Char}
    (ht : Starts t) : Step p (d2 y ++ ' ' :: t) (p.setYear (century y)) t := by
  have h := plain_step (p := p) (dd_digs hy) (by simp [d2]) (e := ' ') (u := t) (t := t)
    (by decide) (slash_space t) (fun y pv => skip_space ht y pv)
  have e : plain p (d2 y) (' ' :: t) = p.setYear (century y) := by
    have h1 := (dc_facts (y / 10) (by omega)).2
    have h2 := (dc_facts (y % 10) (by omega)).2
    simp only [plain, letFirst, isLet, d2, h1, h2]
    have e2 : ((y / 10 : Nat) : Int) * 10 + ((y % 10 : Nat) : Int) = y := by omega
    rw [e2, if_neg (by simp), if_neg (by omega), if_pos hp]
  rwa [e] at h


/-- A text that begins a token other than AM and PM. -/
def NoAp (t : List Char) : Prop :=
  ∃ c u, t = c :: u ∧ c ≠ ' ' ∧ c ≠ '\t' ∧ ((lo c ≠ 'p' ∧ lo c ≠ 'a') ∨ ∃ d v, u = d :: v ∧ lo d ≠ 'm')

theorem amPm_none {t : List Char} (h : NoAp t) (k : Int) : amPm k (' ' :: t) = k := by
  obtain ⟨c, u, rfl, h1, h2, h3⟩ := h
  unfold amPm
  split
  · have e : (' ' :: c :: u).dropWhile (fun c => c = ' ' || c = '\t') = c :: u := by
      simp [List.dropWhile_cons, h1, h2]
    rw [e]
    cases u with
    | nil => rfl
    | cons d v =>
      rcases h3 with h3 | ⟨d', v', he, hd⟩
      · simp [h3.1, h3.2]
      · simp only [List.cons.injEq] at he
        have : lo d ≠ 'm' := by rw [he.1]; exact hd
        simp [this]
  · rfl

theorem digits2 {a b : Char} {t : List Char} (ha : isDig a = true) (hb : isDig b = true)
    (ht : digFirst t = false) :
    (a :: b :: t).takeWhile isDig = [a, b] ∧ (a :: b :: t).dropWhile isDig = t := by
  cases t with
  | nil => simp [List.takeWhile_cons, List.dropWhile_cons, ha, hb]
  | cons c u =>
    simp only [digFirst] at ht
    simp [List.takeWhile_cons, List.dropWhile_cons, ha, hb, ht]

theorem d2_val {n : Nat} (h : n < 100) : num2 (d2 n) = n := by
  simp only [num2, d2]
  rw [(dc_facts _ (by omega)).2, (dc_facts _ (by omega)).2]
  omega

theorem d2_split {n : Nat} (h : n < 100) {t : List Char} (ht : digFirst t = false) :
    (d2 n ++ t).takeWhile isDig = d2 n ∧ (d2 n ++ t).dropWhile isDig = t :=
  digits2 (dc_facts _ (by omega)).1 (dc_facts _ (by omega)).1 ht

/-- The token of a time. -/
theorem token_clock {p : P} (hp : p.hour < 0) {h m s : Nat} (hh : h < 100) (hm : m < 100) (hs : s < 100)
    {t : List Char} (ht : digFirst t = false) :
    token p (clock h m s ++ t) = timeEnd p h m s t := by
  have e0 : clock h m s ++ t = d2 h ++ ':' :: (d2 m ++ ':' :: (d2 s ++ t)) := by simp [clock]
  have h1 := d2_split hh (t := ':' :: (d2 m ++ ':' :: (d2 s ++ t))) (by simp [digFirst, isDig])
  have h2 := d2_split hm (t := ':' :: (d2 s ++ t)) (by simp [digFirst, isDig])
  have h3 := d2_split hs ht
  have hd : isDig (dc (h / 10)) = true := (dc_facts _ (by omega)).1
  rw [e0]
  have e1 : token p (d2 h ++ ':' :: (d2 m ++ ':' :: (d2 s ++ t))) =
      number p (d2 h ++ ':' :: (d2 m ++ ':' :: (d2 s ++ t))) := by
    simp only [d2, List.cons_append, token, hd, if_true]
  rw [e1]
  unfold number
  rw [h1.2, h1.1]
  simp only [time]
  rw [if_neg (by omega), if_neg (by simp [d2]), h2.1, h2.2, if_neg (by simp [d2]), d2_val hh, d2_val hm]
  simp only [timeSec]
  rw [h3.1, h3.2, if_neg (by simp [d2]), if_neg (by simp [d2]), d2_val hs]

/-- A time and a space. -/
theorem step_clock {p : P} (hp : p.hour < 0) {h m s : Nat} (hh : h < 100) (hm : m < 100) (hs : s < 100)
    {t : List Char} (ht : ∀ y, skipT (skipMore y (some ' ') t) = t) (ha : NoAp t) :
    Step p (clock h m s ++ ' ' :: t) (p.setTime h m s (-1)) t := by
  have htok : token p (clock h m s ++ ' ' :: t) = (p.setTime h m s (-1), ' ' :: t) := by
    rw [token_clock hp hh hm hs (by simp [digFirst, isDig])]
    have e : timeEnd p h m s (' ' :: t) = (p.setTime (amPm h (' ' :: t)) m s (-1), ' ' :: t) := rfl
    rw [e, amPm_none ha]
  refine step_of (by simp [clock, d2]) (by rw [htok]) ?_
  intro pv
  simp only [left, htok]
  have : skipToken pv (' ' :: t) = (pv, ' ' :: t) := by simp [skipToken, isEnd]
  rw [this]
  have e2 : ∀ y q, skipMore y q (' ' :: t) = skipMore y (some ' ') t := by intro y q; simp [skipMore, isSep]
  simp only [e2]
  exact ht _

/-- `GMT` at the end of the text. -/
theorem step_gmt {p : P} (hp : p.zone = none) : Step p ['G', 'M', 'T'] (p.setZone .gmt) [] := by
  refine step_of (by simp) ?_ ?_
  · simp [token, isDig, letters, lo, word, P.see, hp]
  · intro pv
    simp [left, token, isDig, skipToken, isEnd, digFirst, skipMore, skipT]

theorem skipToken_digs {ds : List Char} (h : ∀ c ∈ ds, isDig c = true) (pv : Option Char) :
    (skipToken pv ds).2 = [] := by
  induction ds generalizing pv with
  | nil => rfl
  | cons a r ih =>
    have ha := dig_facts (h a (by simp))
    simp only [skipToken, ha.1, Bool.false_eq_true, ha.2.2.1, false_and, or_self, if_false]
    exact ih (fun c hc => h c (by simp [hc])) _

/-- A year of four digits at the end of the text. -/
theorem step_year_end {p : P} (hp : p.year < 0) {y : Nat} (hy : y < 10000) :
    Step p (d4 y) (p.setYear y) [] := by
  have hds := dddd_digs hy
  have htok : token p (d4 y) = (p.setYear y, d4 y) := by
    have tw : (d4 y).takeWhile isDig = d4 y := by
      simp only [d4, List.mem_cons, List.not_mem_nil, or_false, forall_eq_or_imp, forall_eq] at hds
      simp only [d4, List.takeWhile_cons, hds, if_true, List.takeWhile_nil]
    have dw : (d4 y).dropWhile isDig = [] := by
      simp only [d4, List.mem_cons, List.not_mem_nil, or_false, forall_eq_or_imp, forall_eq] at hds
      simp only [d4, List.dropWhile_cons, hds, if_true, List.dropWhile_nil]
    have e1 : token p (d4 y) = number p (d4 y) := by
      have := hds (dc (y / 1000)) (by simp [d4])
      simp only [d4, token, this, if_true]
    rw [e1]
    simp only [number, dw, tw]
    simp only [slashDig, Bool.false_eq_true, if_false, plain, letFirst, d4, d4_val hy, hp, if_true]
  refine step_of (by simp [d4]) (by rw [htok]) ?_
  intro pv
  simp only [left, htok, skipToken_digs hds, skipMore, skipT]

/-- The offset of a numeric zone, in minutes. -/
def offsetMinutes (neg : Bool) (hh mm : Nat) : Int := (if neg then -1 else 1) * (hh * 60 + mm : Int)

/-- A numeric zone at the end of the text. -/
theorem step_zone {p : P} (hz : p.zone = none) (ho : p.zoneOffset = -1) (neg : Bool) {hh mm : Nat}
    (h1 : hh < 100) (h2 : mm < 100) :
    Step p (numericZone neg hh mm) (p.setOffset (offsetMinutes neg hh mm)) [] := by
  have hds : ∀ c ∈ d2 hh ++ d2 mm, isDig c = true := by
    intro c hc
    rcases List.mem_append.1 hc with h | h
    · exact dd_digs h1 c h
    · exact dd_digs h2 c h
  have tw : (d2 hh ++ d2 mm).takeWhile isDig =
      [dc (hh / 10), dc (hh % 10), dc (mm / 10), dc (mm % 10)] := by
    simp only [d2, List.cons_append, List.nil_append, List.mem_cons, List.not_mem_nil, or_false,
      forall_eq_or_imp, forall_eq] at hds ⊢
    simp only [List.takeWhile_cons, hds, if_true, List.takeWhile_nil]
  have v1 : dv (dc (hh / 10)) * 10 + dv (dc (hh % 10)) = hh := d2_val h1
  have v2 : dv (dc (mm / 10)) * 10 + dv (dc (mm % 10)) = mm := d2_val h2
  have hsg : ∀ k, sign p k (d2 hh ++ d2 mm) = p.setOffset ((hh * 60 + mm : Int) * k) := by
    intro k
    simp only [sign, ho, hz, ne_eq, not_true, if_false, tw, v1, v2, false_and]
  have htok : token p (numericZone neg hh mm) = (p.setOffset (offsetMinutes neg hh mm), d2 hh ++ d2 mm) := by
    cases neg
    · simp only [numericZone, Bool.false_eq_true, if_false, token, hsg, offsetMinutes]
      rw [if_neg (by decide), if_pos trivial, Int.mul_comm]
    · simp only [numericZone, if_true, token, hsg, offsetMinutes]
      rw [if_neg (by decide), if_neg (by decide)]
      simp [Int.mul_comm]
  refine step_of (by simp [numericZone]) (by rw [htok]) ?_
  intro pv
  simp only [left, htok, skipToken_digs hds, skipMore, skipT]

/-! ### ISO 8601 -/

theorem triple_iso {y mon d : Nat} (hy : y < 10000) (hm : mon < 12) (hd : d < 100) {c : Char} {t : List Char}
    (hc : isDig c = true) :
    triple (d4 y ++ '-' :: (d2 (mon + 1) ++ '-' :: (d2 d ++ 'T' :: c :: t))) =
      some ((y : Int), (mon : Int) + 1, (d : Int), 'T' :: c :: t) := by
  have a1 := dc_facts (y / 1000) (by omega)
  have a2 := dc_facts (y / 100 % 10) (by omega)
  have a3 := dc_facts (y / 10 % 10) (by omega)
  have a4 := dc_facts (y % 10) (by omega)
  have b1 := dc_facts ((mon + 1) / 10) (by omega)
  have b2 := dc_facts ((mon + 1) % 10) (by omega)
  have c1 := dc_facts (d / 10) (by omega)
  have c2 := dc_facts (d % 10) (by omega)
  have n1 : num1 (d4 y ++ '-' :: (d2 (mon + 1) ++ '-' :: (d2 d ++ 'T' :: c :: t))) =
      some ((y : Int), '-' :: (d2 (mon + 1) ++ '-' :: (d2 d ++ 'T' :: c :: t))) := by
    simp only [d4, List.cons_append, List.nil_append, num1, a2.1, if_true, four, a3.1, a4.1, a1.2, a2.2, a3.2,
      a4.2]
    congr 2; omega
  have n2 : two (d2 (mon + 1) ++ '-' :: (d2 d ++ 'T' :: c :: t)) =
      some ((mon : Int) + 1, '-' :: (d2 d ++ 'T' :: c :: t)) := by
    generalize hu : '-' :: (d2 d ++ 'T' :: c :: t) = u
    simp only [d2, List.cons_append, List.nil_append, two, b1.1, b2.1, if_true, b1.2, b2.2]
    congr 2; omega
  have n3 : num3 (d2 d ++ 'T' :: c :: t) = some ((d : Int), 'T' :: c :: t) := by
    have : two (d2 d ++ 'T' :: c :: t) = some ((d : Int), 'T' :: c :: t) := by
      generalize 'T' :: c :: t = u
      simp only [d2, List.cons_append, List.nil_append, two, c1.1, c2.1, if_true, c1.2, c2.2]
      congr 2; omega
    simp only [num3, this, Option.bind_some]
    simp [digFirst, isDig]
  have sl : ∀ u, slash ('-' :: u) = some u := fun u => by simp [slash]
  have ok : okAfter ('T' :: c :: t) = true := by simp [okAfter, digFirst, hc]
  simp only [triple, n1, Option.bind_some, sl, n2, n3, ok, if_true]

/-- A date of ISO 8601 before `T` and a time. -/
theorem step_iso_date {p : P} (hp : p.month = none) {y mon d : Nat} (hy : y < 10000) (h100 : 100 ≤ y)
    (hm : mon < 12) (hd : d < 32) {c : Char} {t : List Char} (hc : isDig c = true) :
    Step p (d4 y ++ '-' :: (d2 (mon + 1) ++ '-' :: (d2 d ++ 'T' :: c :: t))) (p.setYmd y mon d) (c :: t) := by
  have a1 := dc_facts (y / 1000) (by omega)
  have a2 := dc_facts (y / 100 % 10) (by omega)
  have a3 := dc_facts (y / 10 % 10) (by omega)
  have a4 := dc_facts (y % 10) (by omega)
  have b1 := dc_facts ((mon + 1) / 10) (by omega)
  have htr := triple_iso (d := d) hy hm (by omega) (t := t) hc
  have hdw : (d4 y ++ '-' :: (d2 (mon + 1) ++ '-' :: (d2 d ++ 'T' :: c :: t))).dropWhile isDig =
      '-' :: (d2 (mon + 1) ++ '-' :: (d2 d ++ 'T' :: c :: t)) := by
    have hm' : isDig '-' = false := by decide
    generalize (d2 (mon + 1) ++ '-' :: (d2 d ++ 'T' :: c :: t)) = u
    simp only [d4, List.cons_append, List.nil_append, List.dropWhile_cons, a1.1, a2.1, a3.1, a4.1, if_true, hm',
      Bool.false_eq_true, if_false]
  have htok : token p (d4 y ++ '-' :: (d2 (mon + 1) ++ '-' :: (d2 d ++ 'T' :: c :: t))) =
      (p.setYmd y mon d, 'T' :: c :: t) := by
    have e1 : token p (d4 y ++ '-' :: (d2 (mon + 1) ++ '-' :: (d2 d ++ 'T' :: c :: t))) =
        number p (d4 y ++ '-' :: (d2 (mon + 1) ++ '-' :: (d2 d ++ 'T' :: c :: t))) := by
      generalize '-' :: (d2 (mon + 1) ++ '-' :: (d2 d ++ 'T' :: c :: t)) = u
      simp only [d4, List.cons_append, token, a1.1, if_true]
    rw [e1]
    unfold number
    rw [hdw]
    have sd : slashDig ('-' :: (d2 (mon + 1) ++ '-' :: (d2 d ++ 'T' :: c :: t))) = true := by
      simp [slashDig, digFirst, d2, b1.1]
    simp only [sd, if_true, hp, ne_eq, not_true, if_false, htr, Option.elim_some]
    unfold dateNums
    rw [if_pos (by omega), if_neg (by omega)]
    have : century (y : Int) = y := by unfold century; rw [if_neg (by omega), if_neg (by omega)]
    have e3 : (mon : Int) + 1 - 1 = mon := by omega
    rw [this, e3]
    split
    · rename_i hx; simp only [List.cons.injEq] at hx; exact absurd hx.1 (by decide)
    · rw [if_pos sd]
  refine step_of (by simp [d4]) (by rw [htok]) ?_
  intro pv
  simp only [left, htok]
  have e1 : skipToken pv ('T' :: c :: t) = (pv, 'T' :: c :: t) := by simp [skipToken, digFirst, hc]
  have e2 : ∀ yy, skipMore yy pv ('T' :: c :: t) = 'T' :: c :: t := by intro yy; simp [skipMore, isSep]
  rw [e1]
  simp only [e2, skipT, digFirst, hc, if_true]

theorem foldl_dc : ∀ (fr : List Nat) (a : Nat), (∀ k ∈ fr, k < 10) →
    (fr.map dc).foldl (fun n c => n * 10 + dv c) (a : Int) = ((fr.foldl (fun n k => n * 10 + k) a : Nat) : Int) := by
  intro fr
  induction fr with
  | nil => intro a _; rfl
  | cons k r ih =>
    intro a h
    simp only [List.map_cons, List.foldl_cons]
    rw [(dc_facts k (h k (by simp))).2]
    have : (a : Int) * 10 + (k : Int) = ((a * 10 + k : Nat) : Int) := by omega
    rw [this]
    exact ih _ (fun x hx => h x (by simp [hx]))

theorem foldl_split (r : List Nat) : ∀ (a : Nat), (∀ k ∈ r, k < 10) →
    ∃ e, e < 10 ^ r.length ∧ r.foldl (fun n k => n * 10 + k) a = a * 10 ^ r.length + e := by
  induction r with
  | nil => intro a _; exact ⟨0, by simp, by simp⟩
  | cons k r ih =>
    intro a h
    obtain ⟨e, he, hv⟩ := ih (a * 10 + k) (fun x hx => h x (by simp [hx]))
    have hk := h k (by simp)
    refine ⟨k * 10 ^ r.length + e, ?_, ?_⟩
    · have : (k + 1) * 10 ^ r.length ≤ 10 * 10 ^ r.length := Nat.mul_le_mul_right _ (by omega)
      rw [Nat.add_mul] at this
      rw [List.length_cons, Nat.pow_succ]; omega
    · rw [List.foldl_cons, hv, List.length_cons, Nat.pow_succ, Nat.add_mul, Nat.mul_assoc, Nat.mul_comm 10]
      omega

theorem fraction_val {fr : List Nat} (h : ∀ k ∈ fr, k < 10) : fraction (fr.map dc) = micros fr := by
  have ht : (fr.map dc).take 6 = (fr.take 6).map dc := by rw [List.map_take]
  have h6 : ∀ k ∈ fr.take 6, k < 10 := fun k hk => h k (List.mem_of_mem_take hk)
  have hf := foldl_dc (fr.take 6) 0 h6
  unfold fraction
  rw [ht]
  rw [show ((0 : Int)) = ((0 : Nat) : Int) from rfl, hf, List.length_map]
  have key : (fr.take 6).foldl (fun n k => n * 10 + k) 0 * 10 ^ (6 - fr.length) = micros fr := by
    unfold micros val
    by_cases hl : fr.length ≤ 6
    · rw [List.take_of_length_le hl]
      have e : (1000000 : Nat) = 10 ^ (6 - fr.length) * 10 ^ fr.length := by
        rw [← Nat.pow_add, Nat.sub_add_cancel hl]
      rw [e, ← Nat.mul_assoc, Nat.mul_div_cancel _ (Nat.pos_of_ne_zero (by simp))]
    · have e0 : 6 - fr.length = 0 := by omega
      rw [e0, Nat.pow_zero, Nat.mul_one]
      have hs : fr = fr.take 6 ++ fr.drop 6 := (List.take_append_drop 6 fr).symm
      obtain ⟨e, he, hv⟩ := foldl_split (fr.drop 6) ((fr.take 6).foldl (fun n k => n * 10 + k) 0)
        (fun k hk => h k (List.mem_of_mem_drop hk))
      have hv' : fr.foldl (fun n k => n * 10 + k) 0 =
          (fr.take 6).foldl (fun n k => n * 10 + k) 0 * 10 ^ (fr.drop 6).length + e := by
        rw [← hv, ← List.foldl_append, List.take_append_drop]
      rw [hv']
      have hlen : fr.length = (fr.drop 6).length + 6 := by rw [List.length_drop]; omega
      rw [hlen]
      generalize (fr.drop 6).length = n at he
      generalize (fr.take 6).foldl (fun n k => n * 10 + k) 0 = a
      have hp : 0 < 10 ^ n := Nat.pos_of_ne_zero (by simp)
      rw [Nat.pow_add, show (10 : Nat) ^ 6 = 1000000 from rfl, Nat.mul_div_mul_right _ _ (by decide)]
      rw [Nat.mul_comm a, Nat.mul_add_div hp, Nat.div_eq_of_lt he, Nat.add_zero]
  rw [← key]
  push_cast
  rfl

/-- A time with microseconds and `Z` at the end of the text. -/
theorem step_clock_z {p : P} (hp : p.hour < 0) {h m s : Nat} {fr : List Nat} (hh : h < 100) (hm : m < 100)
    (hs : s < 100) (hu : ∀ k ∈ fr, k < 10) :
    Step p (clock h m s ++ '.' :: (fr.map dc ++ ['Z'])) ((p.setZone .gmt).setTime h m s (micros fr)) [] := by
  have hz : isDig 'Z' = false := by decide
  have hd : ∀ c ∈ fr.map dc, isDig c = true := by
    intro c hc
    obtain ⟨k, hk, rfl⟩ := List.mem_map.1 hc
    exact (dc_facts k (hu k hk)).1
  have tw : (fr.map dc ++ ['Z']).takeWhile isDig = fr.map dc := by
    rw [List.takeWhile_append_of_pos hd]; simp [hz]
  have dw : (fr.map dc ++ ['Z']).dropWhile isDig = ['Z'] := by
    rw [List.dropWhile_append_of_pos hd]; simp [hz]
  have htok : token p (clock h m s ++ '.' :: (fr.map dc ++ ['Z'])) =
      ((p.setZone .gmt).setTime h m s (micros fr), ['Z']) := by
    rw [token_clock hp hh hm hs (by simp [digFirst, isDig])]
    have e : frac ('.' :: (fr.map dc ++ ['Z'])) = ((micros fr : Int), ['Z']) := by
      simp only [frac, tw, dw, fraction_val hu]
    simp only [timeEnd, e]
  refine step_of (by simp [clock, d2]) (by rw [htok]) ?_
  intro pv
  simp only [left, htok]
  simp [skipToken, isEnd, skipMore, skipT]

/-! ### Whole texts -/

/-- The loop ends with these variables. -/
def Run (k : Nat) (p : P) (s : List Char) (q : P) : Prop := ∀ n prev, loop (n + k) p prev s = some q

theorem run_nil (p : P) : Run 0 p [] p := by
  intro n prev
  cases n <;> rfl

theorem Step.run {p : P} {s : List Char} {p' : P} {s' : List Char} {k : Nat} {q : P} (h : Step p s p' s')
    (hr : Run k p' s' q) : Run (k + 1) p s q := by
  intro n prev
  obtain ⟨r, hq⟩ := h (n + k) prev
  rw [← Nat.add_assoc, hq]
  exact hr n r

/-- A date and a time of day, as fields. -/
def dateTime (y mon d h m s us : Int) : Exploded := ⟨us, s, m, h, d, mon, y, 0, 0, 0⟩

theorem sumTo_nonneg (y : Int) (k : Nat) : 0 ≤ sumTo (monthLen y) k := by
  induction k with
  | zero => simp [sumTo]
  | succ k ih => have := (monthLen_pos y k).1; simp only [sumTo]; omega

theorem instant_ge {y mon d h m s us : Nat} (w : Int) (hy : 1 ≤ y) (hm : mon < 12) (hd : 1 ≤ d) :
    instant yearOne + ((y : Int) - 1) * 31536000000000 ≤ instant ⟨us, s, m, h, d, mon, y, w, 0, 0⟩ := by
  have h1 := yearStart_mono (a := 1) (b := y) (by omega)
  have h2 := sumTo_nonneg y mon
  have e0 : instant yearOne = yearStart 1 * 86400000000 := by
    simp only [instant, yearOne, monthStart]
    have : sumTo (monthLen (1 + 0 / 12)) (0 % 12 : Int).toNat = 0 := rfl
    rw [this]
    have : ((1 : Int) + 0 / 12) = 1 := rfl
    rw [this]; omega
  have e1 : ((y : Int) + (mon : Int) / 12) = y := by omega
  have e2 : ((mon : Int) % 12).toNat = mon := by omega
  rw [e0]
  simp only [instant, monthStart, e1, e2]
  omega

theorem shift_instant (e : Exploded) (k : Int) :
    instant (shift (normalize e) k) = instant e - k * 60000000 := by
  have h := (c95_normalize e).2.1
  have e1 : instant (shift (normalize e) k) = instant (normalize e) - k * 60000000 := by
    have ho : (normalize e).offset = 0 := rfl
    generalize normalize e = f at ho
    simp only [instant, shift, ho]
    omega
  rw [e1, h]

theorem instant_wday (a b c d e f g w : Int) :
    instant ⟨a, b, c, d, e, f, g, w, 0, 0⟩ = instant (dateTime g f e d c b a) := rfl

/-- What a run gives. -/
theorem parse_run {s : List Char} {k : Nat} (hk : k ≤ 1001) {q : P} (hr : Run k P.init s q) {e : Exploded}
    (he : finish q = some e) (h1 : instant yearOne ≤ instant e - offsetOf q * 60000000) :
    parse s = some (instant e - offsetOf q * 60000000) := by
  have := hr (1001 - k) none
  rw [Nat.sub_add_cancel hk] at this
  simp only [parse, this, Option.bind_some, he, Option.map_some]
  rw [c95_implode _ (by rw [shift_instant]; exact h1), shift_instant]

/-- The ranges of the fields of a date and time, with a leap second. -/
def InRange (w d mon y h m s : Nat) : Prop :=
  w < 7 ∧ 1 ≤ d ∧ d < 32 ∧ mon < 12 ∧ 1 ≤ y ∧ y < 10000 ∧ h < 24 ∧ m < 60 ∧ s ≤ 60

theorem starts_month {m : Nat} (h : m < 12) (t : List Char) : Starts (monthName m ++ t) := by
  rcases month_lt h with rfl | rfl | rfl | rfl | rfl | rfl | rfl | rfl | rfl | rfl | rfl | rfl
  all_goals exact ⟨_, _, rfl, by decide, by decide, by decide⟩

theorem starts_d2 {n : Nat} (h : n < 100) (t : List Char) : Starts (d2 n ++ t) :=
  starts_dig (dc_facts _ (by omega)).1

theorem starts_d4 {n : Nat} (h : n < 10000) (t : List Char) : Starts (d4 n ++ t) :=
  starts_dig (dc_facts _ (by omega)).1

theorem starts_clock {h m s : Nat} (hh : h < 100) (t : List Char) : Starts (clock h m s ++ t) := by
  have : clock h m s ++ t = d2 h ++ (':' :: (d2 m ++ ':' :: d2 s) ++ t) := by simp [clock]
  rw [this]; exact starts_d2 hh _

/-- The variables after date and time of an HTTP date. -/
def httpVars (w d mon y h m s : Int) : P :=
  ((((P.init.setDay w).setDate d).setMonth mon).setYear y).setTime h m s (-1)

theorem run_rfc1123 {w d mon y h m s : Nat} (hr : InRange w d mon y h m s) {z : List Char}
    (hz : ∀ yr, skipT (skipMore yr (some ' ') z) = z) (ha : NoAp z) {k : Nat} {q : P}
    (hq : Run k (httpVars w d mon y h m s) z q) : Run (k + 5) P.init (rfc1123 w d mon y h m s z) q := by
  obtain ⟨h1, h2, h3, h4, h5, h6, h7, h8, h9⟩ := hr
  refine (step_day rfl h1 (starts_d2 (by omega) _)).1.run (k := k + 4) ?_
  refine (step_date (show (-1 : Int) < 0 by decide) h3 (starts_month h4 _)).run (k := k + 3) ?_
  refine (step_month rfl h4 (starts_d4 h6 _)).run (k := k + 2) ?_
  refine (step_year (show (-1 : Int) < 0 by decide) h6 (starts_clock (by omega) _)).run (k := k + 1) ?_
  exact (step_clock (show (-1 : Int) < 0 by decide) (by omega) (by omega) (by omega) hz ha).run hq

theorem finish_http {w d mon y h m s : Nat} (hr : InRange w d mon y h m s) {q : P}
    (e : (q.month, q.date, q.year, q.hour, q.min, q.sec, q.usec) =
      (some (mon : Int), (d : Int), (y : Int), (h : Int), (m : Int), (s : Int), -1)) :
    finish q = some ⟨0, s, m, h, d, mon, y, q.dotw.getD 0, 0, 0⟩ := by
  obtain ⟨h1, h2, h3, h4, h5, h6, h7, h8, h9⟩ := hr
  simp only [Prod.mk.injEq] at e
  obtain ⟨e1, e2, e3, e4, e5, e6, e7⟩ := e
  simp only [finish, e1, e2, e3, e4, e5, e6, e7]
  rw [if_neg (by omega)]
  simp only [known]
  rw [if_neg (by omega), if_pos (by omega), if_pos (by omega), if_pos (by omega), if_pos (by omega)]

theorem http_ge {w d mon y h m s us : Nat} (hr : InRange w d mon y h m s) :
    instant yearOne + ((y : Int) - 1) * 31536000000000 ≤ instant (dateTime y mon d h m s us) :=
  instant_ge (us := us) (h := h) (m := m) (s := s) 0 hr.2.2.2.2.1 hr.2.2.2.1 hr.2.1

/-- **C96.** An RFC 1123 date in GMT is parsed to its instant. -/
theorem c96_rfc1123 {w d mon y h m s : Nat} (hr : InRange w d mon y h m s) :
    parse (rfc1123 w d mon y h m s ['G', 'M', 'T']) = some (instant (dateTime y mon d h m s 0)) := by
  have hq := run_rfc1123 hr (z := ['G', 'M', 'T']) (by intro yr; simp [skipMore, isSep, skipT])
    ⟨'G', _, rfl, by decide, by decide, Or.inl ⟨by decide, by decide⟩⟩ ((step_gmt rfl).run (run_nil _))
  have hf := finish_http hr (q := (httpVars w d mon y h m s).setZone .gmt) rfl
  have e : offsetOf ((httpVars w d mon y h m s).setZone .gmt) = 0 := rfl
  have hg := http_ge (us := 0) hr
  have hy := hr.2.2.2.2.1
  have := parse_run (by omega) hq hf (by rw [e, instant_wday]; simp only [Nat.cast_zero] at hg; omega)
  rw [this, e, instant_wday, Int.zero_mul, Int.sub_zero]

/-- **C96.** An RFC 1123 date with a numeric zone, from year 2 on, is parsed to its instant: the time
minus the offset.  Not so for `-0001`. -/
theorem c96_zone {w d mon y h m s : Nat} (hr : InRange w d mon y h m s) (hy : 2 ≤ y) {neg : Bool} {hh mm : Nat}
    (h1 : hh < 24) (h2 : mm < 60) (h3 : (neg, hh, mm) ≠ (true, 0, 1)) :
    parse (rfc1123 w d mon y h m s (numericZone neg hh mm)) =
      some (instant (dateTime y mon d h m s 0) - offsetMinutes neg hh mm * 60000000) := by
  have hdig := (dc_facts (hh / 10) (by omega)).1
  have hq := run_rfc1123 hr (z := numericZone neg hh mm)
    (by
      intro yr
      cases neg
      · simp [numericZone, skipMore, isSep, skipT]
      · simp [numericZone, skipMore, isSep, skipT, d2, digFirst, hdig, isLet])
    (by
      cases neg
      · exact ⟨'+', _, rfl, by decide, by decide, Or.inl ⟨by decide, by decide⟩⟩
      · exact ⟨'-', _, rfl, by decide, by decide, Or.inl ⟨by decide, by decide⟩⟩)
    ((step_zone rfl rfl neg (hh := hh) (mm := mm) (by omega) (by omega)).run (run_nil _))
  have hf := finish_http hr (q := (httpVars w d mon y h m s).setOffset (offsetMinutes neg hh mm)) rfl
  have hb : offsetMinutes neg hh mm ≤ 1440 := by
    cases neg <;> simp only [offsetMinutes] <;> simp <;> omega
  have hn : offsetMinutes neg hh mm ≠ -1 := by
    intro hc
    apply h3
    cases neg
    · simp only [offsetMinutes, Bool.false_eq_true, if_false] at hc; omega
    · simp only [offsetMinutes, if_true] at hc
      have a : hh = 0 := by omega
      have b : mm = 1 := by omega
      rw [a, b]
  have e : offsetOf ((httpVars w d mon y h m s).setOffset (offsetMinutes neg hh mm)) = offsetMinutes neg hh mm := by
    have : ((httpVars w d mon y h m s).setOffset (offsetMinutes neg hh mm)).zoneOffset = offsetMinutes neg hh mm := rfl
    unfold offsetOf
    rw [if_neg (by rw [this]; exact hn), this]
  have hg := http_ge (us := 0) hr
  have := parse_run (by omega) hq hf (by rw [e, instant_wday]; simp only [Nat.cast_zero] at hg; omega)
  rw [this, e, instant_wday]

/-- Names of zones. -/
def zoneName : Zone → List Char
  | .pst => ['P', 'S', 'T'] | .pdt => ['P', 'D', 'T'] | .mst => ['M', 'S', 'T'] | .mdt => ['M', 'D', 'T']
  | .cst => ['C', 'S', 'T'] | .cdt => ['C', 'D', 'T'] | .est => ['E', 'S', 'T'] | .edt => ['E', 'D', 'T']
  | .ast => ['A', 'S', 'T'] | .nst => ['N', 'S', 'T'] | .gmt => ['G', 'M', 'T'] | .bst => ['B', 'S', 'T']
  | .met => ['M', 'E', 'T'] | .eet => ['E', 'E', 'T'] | .jst => ['J', 'S', 'T']

/-- Hours from Greenwich, in halves, of the zones (RFC 822 for those of North America; Newfoundland is
half an hour off). -/
def halfHours : Zone → Int
  | .pst => -16 | .pdt => -14 | .mst => -14 | .mdt => -12 | .cst => -12 | .cdt => -10 | .est => -10
  | .edt => -8 | .ast => -8 | .nst => -7 | .gmt => 0 | .bst => 2 | .met => 2 | .eet => 4 | .jst => 18

theorem step_zone_name {p : P} (hp : p.zone = none) (z : Zone) : Step p (zoneName z) (p.setZone z) [] := by
  cases z
  all_goals
    refine step_of (by simp [zoneName]) ?_ ?_
    · simp [zoneName, token, isDig, letters, lo, word, P.see, hp]
    · intro pv
      simp [zoneName, left, token, isDig, skipToken, isEnd, digFirst, skipMore, skipT]

/-- **C96.** An RFC 1123 date with a zone given by name is parsed to its instant. -/
theorem c96_named_zone {w d mon y h m s : Nat} (hr : InRange w d mon y h m s) (hy : 2 ≤ y) (z : Zone) :
    parse (rfc1123 w d mon y h m s (zoneName z)) =
      some (instant (dateTime y mon d h m s 0) - halfHours z * 1800000000) := by
  have hq := run_rfc1123 hr (z := zoneName z) (by intro yr; cases z <;> simp [zoneName, skipMore, isSep, skipT])
    (by
      cases z
      all_goals
        first
        | exact ⟨_, _, rfl, by decide, by decide, Or.inl ⟨by decide, by decide⟩⟩
        | exact ⟨_, _, rfl, by decide, by decide, Or.inr ⟨_, _, rfl, by decide⟩⟩)
    ((step_zone_name rfl z).run (run_nil _))
  have hf := finish_http hr (q := (httpVars w d mon y h m s).setZone z) rfl
  have e : offsetOf ((httpVars w d mon y h m s).setZone z) * 60000000 = halfHours z * 1800000000 := by
    have : offsetOf ((httpVars w d mon y h m s).setZone z) = zoneMinutes z := rfl
    rw [this]; cases z <;> decide
  have hb : halfHours z ≤ 18 := by cases z <;> decide
  have hg := http_ge (us := 0) hr
  have := parse_run (by omega) hq hf (by rw [e, instant_wday]; simp only [Nat.cast_zero] at hg; omega)
  rw [this, e, instant_wday]

/-- **C96.** An RFC 850 date is parsed to its instant, its year being from 1970 to 2069. -/
theorem c96_rfc850 {w d mon y h m s : Nat} (hy : y < 100) (hr : InRange w d mon (if y < 70 then 2000 + y else 1900 + y) h m s) :
    parse (rfc850 w d mon y h m s) =
      some (instant (dateTime (if y < 70 then 2000 + y else 1900 + y : Nat) mon d h m s 0)) := by
  have hr' := hr
  obtain ⟨h1, h2, h3, h4, h5, h6, h7, h8, h9⟩ := hr
  have hc : century (y : Int) = ((if y < 70 then 2000 + y else 1900 + y : Nat) : Int) := by
    unfold century
    by_cases h : y < 70
    · rw [if_pos (by omega), if_pos h]; omega
    · rw [if_neg (by omega), if_pos (by omega), if_neg h]; omega
  have hq : Run 6 P.init (rfc850 w d mon y h m s) ((httpVars w d mon (century y) h m s).setZone .gmt) := by
    refine (step_day rfl h1 (starts_d2 (by omega) _)).2.2.run (k := 5) ?_
    have hmn : ∃ c t, monthName mon ++ '-' :: (d2 y ++ ' ' :: (clock h m s ++ ' ' :: ['G', 'M', 'T'])) = c :: t ∧
        isDig c = false := by
      rcases month_lt h4 with rfl | rfl | rfl | rfl | rfl | rfl | rfl | rfl | rfl | rfl | rfl | rfl
      all_goals exact ⟨_, _, rfl, by decide⟩
    obtain ⟨c, t, hct, hcd⟩ := hmn
    have hst := starts_month h4 ('-' :: (d2 y ++ ' ' :: (clock h m s ++ ' ' :: ['G', 'M', 'T'])))
    have hs2 : Step (P.init.setDay w) (d2 d ++ '-' :: (monthName mon ++ '-' :: (d2 y ++ ' ' ::
        (clock h m s ++ ' ' :: ['G', 'M', 'T'])))) ((P.init.setDay w).setDate d)
        (monthName mon ++ '-' :: (d2 y ++ ' ' :: (clock h m s ++ ' ' :: ['G', 'M', 'T']))) := by
      rw [hct] at hst ⊢
      exact step_date_dash (show (-1 : Int) < 0 by decide) h3 hcd hst
    refine hs2.run (k := 4) ?_
    refine (step_month_dash (p := (P.init.setDay w).setDate d) rfl (show (-1 : Int) < 0 by decide) h4 (c := dc (y / 10))
      (t := dc (y % 10) :: ' ' :: (clock h m s ++ ' ' :: ['G', 'M', 'T']))
      (dc_facts _ (by omega)).1).run (k := 3) ?_
    refine (step_year2 (p := ((P.init.setDay w).setDate d).setMonth mon)
      (by simp only [P.setDate, P.setDay, P.setMonth, P.init]; omega)
      (show (-1 : Int) < 0 by decide) hy (starts_clock (by omega) _)).run (k := 2) ?_
    refine (step_clock (p := (((P.init.setDay w).setDate d).setMonth mon).setYear (century y))
      (show (-1 : Int) < 0 by decide) (by omega) (by omega) (by omega) (by intro yr; simp [skipMore, isSep, skipT])
      ⟨'G', _, rfl, by decide, by decide, Or.inl ⟨by decide, by decide⟩⟩).run (k := 1) ?_
    exact (step_gmt rfl).run (run_nil _)
  rw [hc] at hq
  generalize (if y < 70 then 2000 + y else 1900 + y : Nat) = yy at hr' hq h5 ⊢
  have hf := finish_http hr' (q := (httpVars w d mon yy h m s).setZone .gmt) rfl
  have e : offsetOf ((httpVars w d mon yy h m s).setZone .gmt) = 0 := rfl
  have hg := http_ge (us := 0) hr'
  have := parse_run (by omega) hq hf (by rw [e, instant_wday]; simp only [Nat.cast_zero] at hg; omega)
  rw [this, e, instant_wday, Int.zero_mul, Int.sub_zero]

theorem starts_day {d : Nat} (h : d < 10) (t : List Char) : Starts (dc d :: t) := starts_dig (dc_facts d h).1

/-- **C96.** An asctime date is parsed to its instant, as GMT. -/
theorem c96_asctime {w d mon y h m s : Nat} (hr : InRange w d mon y h m s) :
    parse (asctime w d mon y h m s) = some (instant (dateTime y mon d h m s 0)) := by
  have hr' := hr
  obtain ⟨h1, h2, h3, h4, h5, h6, h7, h8, h9⟩ := hr
  have key : Run 3 ((P.init.setDay w).setMonth mon) ((if d < 10 then [dc d] else d2 d) ++ ' ' ::
      (clock h m s ++ ' ' :: d4 y)) (httpVars w d mon y h m s) := by
    have hst : Starts (clock h m s ++ ' ' :: d4 y) := starts_clock (by omega) _
    have hd : Step ((P.init.setDay w).setMonth mon) ((if d < 10 then [dc d] else d2 d) ++ ' ' ::
        (clock h m s ++ ' ' :: d4 y)) (((P.init.setDay w).setMonth mon).setDate d)
        (clock h m s ++ ' ' :: d4 y) := by
      by_cases hl : d < 10
      · rw [if_pos hl]; exact step_date1 (show (-1 : Int) < 0 by decide) hl hst
      · rw [if_neg hl]; exact step_date (show (-1 : Int) < 0 by decide) h3 hst
    refine hd.run (k := 2) ?_
    have hdig := (dc_facts (y / 1000) (by omega)).1
    have hdf := dig_facts hdig
    refine (step_clock (p := ((P.init.setDay w).setMonth mon).setDate d)
      (show (-1 : Int) < 0 by decide) (by omega) (by omega) (by omega)
      (fun yr => by have := skipMore_starts (starts_d4 h6 []) yr (some ' '); rw [List.append_nil] at this; exact this)
      ⟨dc (y / 1000), _, rfl, hdf.2.2.2.2.2.2.2.2.1, hdf.2.2.2.2.2.2.2.2.2.1, Or.inl ⟨by
        rw [hdf.2.2.2.2.2.2.2.2.2.2.1]; intro hc; rw [hc] at hdig; simp [isDig] at hdig, by
        rw [hdf.2.2.2.2.2.2.2.2.2.2.1]; intro hc; rw [hc] at hdig; simp [isDig] at hdig⟩⟩).run (k := 1) ?_
    exact (step_year_end (p := (((P.init.setDay w).setMonth mon).setDate d).setTime h m s (-1))
      (show (-1 : Int) < 0 by decide) h6).run (run_nil _)
  have hq : Run 5 P.init (asctime w d mon y h m s) (httpVars w d mon y h m s) := by
    refine (step_day (w := w) rfl h1 (starts_month h4 _)).2.1.run (k := 4) ?_
    have : Step (P.init.setDay w) (monthName mon ++ ' ' :: ((if d < 10 then [' ', dc d] else d2 d) ++ ' ' ::
        (clock h m s ++ ' ' :: d4 y))) ((P.init.setDay w).setMonth mon)
        ((if d < 10 then [dc d] else d2 d) ++ ' ' :: (clock h m s ++ ' ' :: d4 y)) := by
      by_cases hl : d < 10
      · rw [if_pos hl, if_pos hl]
        exact step_month2 rfl h4 (starts_day hl _)
      · rw [if_neg hl, if_neg hl]
        exact step_month rfl h4 (starts_d2 (by omega) _)
    exact this.run key
  have hf := finish_http hr' (q := httpVars w d mon y h m s) rfl
  have e : offsetOf (httpVars w d mon y h m s) = 0 := rfl
  have hg := http_ge (us := 0) hr'
  have := parse_run (by omega) hq hf (by rw [e, instant_wday]; simp only [Nat.cast_zero] at hg; omega)
  rw [this, e, instant_wday, Int.zero_mul, Int.sub_zero]

/-- **C96.** An ISO 8601 date and time in UTC, with any number of digits after the point, is parsed to its
instant in microseconds, from year 100 on. -/
theorem c96_iso8601 {d mon y h m s : Nat} {fr : List Nat} (hr : InRange 0 d mon y h m s) (hy : 100 ≤ y)
    (hu : ∀ k ∈ fr, k < 10) :
    parse (iso8601 y mon d h m s fr) = some (instant (dateTime y mon d h m s (micros fr))) := by
  have hr' := hr
  obtain ⟨h1, h2, h3, h4, h5, h6, h7, h8, h9⟩ := hr
  have hq : Run 2 P.init (iso8601 y mon d h m s fr) (((P.init.setYmd y mon d).setZone .gmt).setTime h m s (micros fr)) := by
    have hs := step_iso_date (p := P.init) rfl h6 hy h4 h3 (c := dc (h / 10))
      (t := dc (h % 10) :: ':' :: (d2 m ++ ':' :: d2 s) ++ '.' :: (fr.map dc ++ ['Z'])) (dc_facts _ (by omega)).1
    have h2 := (step_clock_z (p := P.init.setYmd y mon d) (show (-1 : Int) < 0 by decide)
      (h := h) (m := m) (s := s) (by omega) (by omega) (by omega) hu).run (run_nil _)
    exact hs.run (k := 1) h2
  have hf : finish (((P.init.setYmd y mon d).setZone .gmt).setTime h m s (micros fr)) =
      some ⟨micros fr, s, m, h, d, mon, y, 0, 0, 0⟩ := by
    have hk : ∀ n : Nat, known (n : Int) = n := by
      intro n; unfold known; rw [if_pos (by omega)]
    have hu : finish (((P.init.setYmd y mon d).setZone .gmt).setTime h m s (micros fr)) =
        if (d : Int) = -1 ∨ (y : Int) = -1 ∨ (y : Int) > 32767 then none
        else some ⟨known (micros fr : Nat), known s, known m, known h, known d, mon, y, 0, 0, 0⟩ := rfl
    rw [hu, if_neg (by omega)]
    simp only [hk]
  have e : offsetOf (((P.init.setYmd y mon d).setZone .gmt).setTime h m s (micros fr)) = 0 := rfl
  have hg := http_ge (us := micros fr) hr'
  have := parse_run (by omega) hq hf (by rw [e, instant_wday]; omega)
  rw [this, e, instant_wday, Int.zero_mul, Int.sub_zero]

/-- **C96, violation.** The zone `-0001` is read as GMT: its offset is the value for "unknown". -/
theorem c96_minus_one_minute :
    parse (rfc1123 0 6 10 1994 8 49 37 (numericZone true 0 1)) =
      parse (rfc1123 0 6 10 1994 8 49 37 ['G', 'M', 'T']) := by decide +kernel

/-- **C96, violation.** ISO 8601 years below 100 are misread: `0075` is 1975, and `0012-11-10` is the
eleventh of December 2010. -/
theorem c96_small_years :
    parse (iso8601 75 0 1 0 0 0 [0]) = some (instant (dateTime 1975 0 1 0 0 0 0)) ∧
    parse (iso8601 12 10 10 0 0 0 [0]) = some (instant (dateTime 2010 11 11 0 0 0 0)) := by decide +kernel

/-- **C96, violation.** Impossible dates are accepted: the thirtieth of February, and month 0. -/
theorem c96_impossible :
    parse (rfc1123 0 30 1 2001 0 0 0 ['G', 'M', 'T']) = parse (rfc1123 0 2 2 2001 0 0 0 ['G', 'M', 'T']) ∧
    parse ("2001-00-10T00:00:00Z".toList) = parse ("2000-12-10T00:00:00Z".toList) := by decide +kernel

/-- **C96.** `FromUTCString` rejects the empty text, and otherwise gives the time from 1601 of what was
parsed. -/
theorem c96_fromUTCString (s : List Char) :
    fromUTCString [] = none ∧ (s ≠ [] → fromUTCString s = (parse s).map (11644473600000000 + ·)) := by
  refine ⟨rfl, fun h => ?_⟩
  simp only [fromUTCString, if_neg h]

/-- The hypotheses of C96 are met: the examples of RFC 2616, all at 784111777 seconds. -/
theorem w_c96 : InRange 0 6 10 1994 8 49 37 ∧
    rfc1123 0 6 10 1994 8 49 37 ['G', 'M', 'T'] = "Sun, 06 Nov 1994 08:49:37 GMT".toList ∧
    rfc850 0 6 10 94 8 49 37 = "Sunday, 06-Nov-94 08:49:37 GMT".toList ∧
    asctime 0 6 10 1994 8 49 37 = "Sun Nov  6 08:49:37 1994".toList ∧
    iso8601 1994 10 6 8 49 37 [1, 2, 3, 4, 5, 6] = "1994-11-06T08:49:37.123456Z".toList ∧
    rfc1123 0 6 10 1994 9 49 37 (numericZone false 1 0) = "Sun, 06 Nov 1994 09:49:37 +0100".toList ∧
    instant (dateTime 1994 10 6 8 49 37 0) = 784111777000000 ∧
    parse "Sun, 06 Nov 1994 09:49:37 +0100".toList = some 784111777000000 := by
  refine ⟨by unfold InRange; omega, ?_, ?_, ?_, ?_, ?_, ?_, ?_⟩ <;> decide +kernel

end Ltio.Time.Parse
