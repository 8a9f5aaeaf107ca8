import Verif.Source.Model
import Mathlib.Data.List.Forall2

/-
C91: what a loaded table holds.  The specification (`IsLines`, `HasRow`, `Content`) speaks about the
text of the files only: lines are what newlines separate, columns are what delimiters separate.
-/
namespace Ltio.Source
open Ltio.Text

variable {J : Type}

/-! ### Specification -/

/-- `ls` are the lines of a file: separated by newlines. -/
def IsLines : File → List Str → Prop
  | .missing, ls => ls = []
  | .text t, ls => ls ≠ [] ∧ (∀ l ∈ ls, '\n' ∉ l) ∧ join ls ['\n'] = t
  | .broken _, _ => False

/-- `ps` are the columns of a line, as many as the header has. -/
def IsColumns (cf : Cfg J) (c : Char) (line : Str) (ps : List Str) : Prop :=
  ps.length = cf.header.length ∧ (∀ p ∈ ps, c ∉ p) ∧ join ps [c] = line

/-- The value a column of a type has for a text; `none` for the type that is no type. -/
def conv (parse : Str → Option J) (col : Column J) (t : Str) : Option (Val J) := handle parse col t

/-- Every column that has a scheme has a valid type. -/
def Typed (cf : Cfg J) : Prop := ∀ h ∈ cf.header, ∀ col, cf.columns h = some col → col.type ≠ .invalid

/-- The row has exactly the columns with a scheme, each with the value of its text. -/
def Content (cf : Cfg J) (ps : List Str) (r : Row J) : Prop :=
  (∀ (i : Nat) (h p : Str), cf.header[i]? = some h → ps[i]? = some p →
    r.lookup h = (cf.columns h).bind (fun col => conv cf.parse col p)) ∧
  ∀ h, h ∉ cf.header → r.lookup h = none

/-- A line has a row for the name: its columns are right in number, and the `k`-th is the name. -/
def HasRow (cf : Cfg J) (c : Char) (k : Nat) (name line : Str) : Prop :=
  ∃ ps, IsColumns cf c line ps ∧ ps[k]? = some name

/-! ### Lines -/

theorem drop_nil_no {c : Char} : ∀ {t : Str}, t.dropWhile (· ≠ c) = [] → c ∉ t := by
  intro t
  induction t with
  | nil => intro _; simp
  | cons x t ih =>
    intro h
    by_cases hx : x = c
    · subst hx; simp at h
    · rw [List.dropWhile_cons, if_pos (by simpa using hx)] at h
      simp only [List.mem_cons, not_or]
      exact ⟨fun e => hx e.symm, ih h⟩

theorem drop_cons {c : Char} : ∀ {t : Str} {x : Char} {r : Str}, t.dropWhile (· ≠ c) = x :: r →
    x = c ∧ t = t.takeWhile (· ≠ c) ++ c :: r ∧ c ∉ t.takeWhile (· ≠ c) := by
  intro t
  induction t with
  | nil => intro x r h; simp at h
  | cons y t ih =>
    intro x r h
    by_cases hy : y = c
    · subst hy
      simp only [List.dropWhile_cons, ne_eq, not_true, decide_false, Bool.false_eq_true, if_false,
        List.cons.injEq] at h
      obtain ⟨rfl, rfl⟩ := h
      simp
    · rw [List.dropWhile_cons, if_pos (by simpa using hy)] at h
      obtain ⟨h1, h2, h3⟩ := ih h
      refine ⟨h1, ?_, ?_⟩
      · rw [List.takeWhile_cons, if_pos (by simpa using hy), List.cons_append, ← h2]
      · rw [List.takeWhile_cons, if_pos (by simpa using hy)]
        simp only [List.mem_cons, not_or]
        exact ⟨fun e => hy e.symm, h3⟩

theorem take_all {c : Char} : ∀ {t : Str}, c ∉ t → t.takeWhile (· ≠ c) = t := by
  intro t
  induction t with
  | nil => intro _; rfl
  | cons x t ih =>
    intro h
    simp only [List.mem_cons, not_or] at h
    rw [List.takeWhile_cons, if_pos (by simpa using fun e => h.1 e.symm), ih h.2]

theorem lines_spec : ∀ (n : Nat) (t l : Str), t.length < n →
    (lineLoop n ⟨t, false, false, false, l⟩).2 = true ∧
    IsLines (.text t) (lineLoop n ⟨t, false, false, false, l⟩).1 := by
  intro n
  induction n with
  | zero => intro t l h; omega
  | succ n ih =>
    intro t l hn
    cases hd : t.dropWhile (· ≠ '\n') with
    | nil =>
      have hno := drop_nil_no hd
      have e : getline ⟨t, false, false, false, l⟩ = ⟨[], false, true, t.isEmpty, t⟩ := by
        simp only [getline, Bool.false_eq_true, or_self, if_false, hd]
        rw [take_all hno]; simp
      have e2 : lineLoop n ⟨[], false, true, t.isEmpty, t⟩ = ([], true) := by
        cases n <;> simp [lineLoop]
      simp only [lineLoop, Bool.false_eq_true, if_false, e, e2, IsLines]
      refine ⟨trivial, by simp, by simpa using hno, by simp [join]⟩
    | cons x r =>
      obtain ⟨rfl, ht, hno⟩ := drop_cons hd
      have e : getline ⟨t, false, false, false, l⟩ =
          ⟨r, false, false, false, t.takeWhile (· ≠ '\n')⟩ := by
        simp only [getline, Bool.false_eq_true, or_self, if_false, hd]
      have hlen : r.length < n := by
        have := congrArg List.length ht
        simp only [List.length_append, List.length_cons] at this
        omega
      obtain ⟨h1, h2, h3, h4⟩ := ih r (t.takeWhile (· ≠ '\n')) hlen
      simp only [lineLoop, Bool.false_eq_true, if_false, e]
      generalize hls : lineLoop n ⟨r, false, false, false, t.takeWhile (· ≠ '\n')⟩ = q at h1 h2 h3 h4
      refine ⟨h1, by simp, ?_, ?_⟩
      · intro l' hl'
        rcases List.mem_cons.1 hl' with rfl | hl'
        · exact hno
        · exact h3 l' hl'
      · cases hq : q.1 with
        | nil => exact absurd hq h2
        | cons a b =>
          rw [hq] at h4
          conv_rhs => rw [ht]
          simp only [join, List.flatMap_cons] at h4 ⊢
          rw [← h4]
          simp

/-- **C91.** The loader delivers exactly the lines of a file: what newlines separate (an empty last
line if the file ends with a newline). -/
theorem c91_lines (t : Str) : ∃ ls, fileLines (.text t) = some ls ∧ IsLines (.text t) ls ∧
    (lineLoop (enough t) (openRd t false)).2 = true :=
  ⟨_, rfl, (lines_spec (enough t) t [] (by simp [enough])).2,
    (lines_spec (enough t) t [] (by simp [enough])).1⟩

/-! ### Rows -/

theorem fields_lookup (cf : Cfg J) : ∀ (hs ps : List Str) (out : Row J), hs.Nodup →
    hs.length = ps.length →
    (∀ h ∈ hs, ∀ col, cf.columns h = some col → col.type ≠ .invalid) →
    ∃ r, fields cf (hs.zip ps) out = some r ∧
      (∀ (i : Nat) (h p : Str), hs[i]? = some h → ps[i]? = some p →
        r.lookup h = ((cf.columns h).bind (fun col => conv cf.parse col p)).or (out.lookup h)) ∧
      ∀ h, h ∉ hs → r.lookup h = out.lookup h := by
  intro hs
  induction hs with
  | nil =>
    intro ps out _ _ _
    exact ⟨out, rfl, by simp, by simp⟩
  | cons h hs ih =>
    intro ps out hnd hlen hty
    cases ps with
    | nil => simp at hlen
    | cons p ps =>
      obtain ⟨hnot, hnd'⟩ := List.nodup_cons.1 hnd
      simp only [List.length_cons, Nat.add_right_cancel_iff] at hlen
      have hty' : ∀ h' ∈ hs, ∀ col, cf.columns h' = some col → col.type ≠ .invalid :=
        fun h' hh => hty h' (List.mem_cons_of_mem _ hh)
      cases hc : cf.columns h with
      | none =>
        obtain ⟨r, h1, h2, h3⟩ := ih ps out hnd' hlen hty'
        refine ⟨r, by simpa only [List.zip_cons_cons, fields, hc] using h1, ?_, ?_⟩
        · intro i h' p' hi hp
          cases i with
          | zero =>
            simp only [List.getElem?_cons_zero, Option.some.injEq] at hi hp
            subst hi; subst hp
            rw [h3 h hnot, hc]; rfl
          | succ i =>
            simp only [List.getElem?_cons_succ] at hi hp
            exact h2 i h' p' hi hp
        · intro h' hn
          simp only [List.mem_cons, not_or] at hn
          exact h3 h' hn.2
      | some col =>
        have hv := hty h (List.mem_cons_self ..) col hc
        have : ∃ v, handle cf.parse col p = some v := by
          unfold handle
          cases ht : col.type <;> simp_all
        obtain ⟨v, hv⟩ := this
        obtain ⟨r, h1, h2, h3⟩ := ih ps ((h, v) :: out) hnd' hlen hty'
        refine ⟨r, ?_, ?_, ?_⟩
        · simp only [List.zip_cons_cons, fields, hc, hv, Option.bind_some]; exact h1
        · intro i h' p' hi hp
          cases i with
          | zero =>
            simp only [List.getElem?_cons_zero, Option.some.injEq] at hi hp
            subst hi; subst hp
            rw [h3 h hnot, hc]
            simp [conv, hv]
          | succ i =>
            simp only [List.getElem?_cons_succ] at hi hp
            rw [h2 i h' p' hi hp]
            have hne : h' ≠ h := by
              rintro rfl
              exact hnot (List.mem_of_getElem? hi)
            have : (h' == h) = false := by simpa using hne
            simp [List.lookup, this]
        · intro h' hn
          simp only [List.mem_cons, not_or] at hn
          rw [h3 h' hn.2]
          have : (h' == h) = false := by simpa using hn.1
          simp [List.lookup, this]

/-- A line that has the right number of columns is parsed into a row with their values; any other
line is refused. -/
theorem parse_spec (cf : Cfg J) {c : Char} (hd : cf.delimiter = [c]) (hne : cf.header ≠ [])
    (hnd : cf.header.Nodup) (hty : Typed cf) (line : Str) :
    (∀ ps, IsColumns cf c line ps → ∃ r, parseContent cf line = some r ∧ Content cf ps r) ∧
    ((¬ ∃ ps, IsColumns cf c line ps) → parseContent cf line = none) := by
  constructor
  · intro ps ⟨h1, h2, h3⟩
    have hps : ps ≠ [] := by
      rintro rfl
      exact hne (List.length_eq_zero_iff.1 h1.symm)
    have hs : split line cf.delimiter false = some ps := by
      rw [hd, ← h3]; exact c32_split_join c ps hps h2
    obtain ⟨r, g1, g2, g3⟩ := fields_lookup cf cf.header ps [] hnd h1.symm hty
    refine ⟨r, ?_, ?_, ?_⟩
    · simp only [parseContent, hs, Option.bind_some, h1, ne_eq, not_true, if_false]
      exact g1
    · intro i h p hi hp
      rw [g2 i h p hi hp]
      cases hh : (cf.columns h).bind (fun col => conv cf.parse col p) <;> simp
    · intro h hn
      rw [g3 h hn]; rfl
  · intro hno
    obtain ⟨ps, h1, _, h3, h4⟩ := c32_join_split c line
    have : ps.length ≠ cf.header.length := fun e => hno ⟨ps, e, h3, h4⟩
    simp only [parseContent, hd, h1, Option.bind_some, this, ne_eq, not_false_eq_true, if_true]

/-- The columns of a line are determined by it. -/
theorem columns_unique (cf : Cfg J) {c : Char} (hne : cf.header ≠ []) {line : Str} {ps qs : List Str}
    (hp : IsColumns cf c line ps) (hq : IsColumns cf c line qs) : ps = qs := by
  have h1 : ps ≠ [] := by rintro rfl; exact hne (List.length_eq_zero_iff.1 hp.1.symm)
  have h2 : qs ≠ [] := by rintro rfl; exact hne (List.length_eq_zero_iff.1 hq.1.symm)
  have a := c32_split_join c ps h1 hp.2.1
  have b := c32_split_join c qs h2 hq.2.1
  rw [hp.2.2] at a
  rw [hq.2.2, a] at b
  exact Option.some.inj b

/-- What the table is after some lines: for each name, nothing if no line has a row for it, and
otherwise the content of the last line that has. -/
def Latest (cf : Cfg J) (c : Char) (k : Nat) (L : List Str) (tb : Table J) : Prop :=
  ∀ name,
    match getByName tb name with
    | none => ∀ line ∈ L, ¬ HasRow cf c k name line
    | some r => ∃ before line after ps, L = before ++ line :: after ∧ IsColumns cf c line ps ∧
        ps[k]? = some name ∧ Content cf ps r ∧ ∀ l ∈ after, ¬ HasRow cf c k name l

theorem latest_step (cf : Cfg J) {c : Char} (hd : cf.delimiter = [c]) {k : Nat}
    (hnd : cf.header.Nodup) (hty : Typed cf) (hk : cf.header[k]? = some cf.primary)
    {col : Column J} (hcol : cf.columns cf.primary = some col) (hs : col.type = .string)
    (L : List Str) (tb : Table J) (h : Latest cf c k L tb) (line : Str) :
    Latest cf c k (L ++ [line]) (onReadData cf tb line) := by
  have hne : cf.header ≠ [] := by rintro e; simp [e] at hk
  obtain ⟨hp1, hp2⟩ := parse_spec cf hd hne hnd hty line
  by_cases hc : ∃ ps, IsColumns cf c line ps
  · obtain ⟨ps, hps⟩ := hc
    obtain ⟨r, hr, hcont⟩ := hp1 ps hps
    have hkl : k < ps.length := by
      rw [hps.1]
      exact (List.getElem?_eq_some_iff.1 hk).1
    obtain ⟨nm, hnm⟩ : ∃ nm, ps[k]? = some nm := ⟨ps[k], List.getElem?_eq_getElem hkl⟩
    have hlook : r.lookup cf.primary = some (.str nm) := by
      rw [hcont.1 k cf.primary nm hk hnm, hcol]
      simp [conv, handle, hs]
    have htb : onReadData cf tb line = (nm, r) :: tb := by
      simp only [onReadData, hr, store, hlook]
    intro name
    rw [htb]
    by_cases hname : name = nm
    · subst hname
      simp only [getByName, List.lookup, BEq.rfl]
      exact ⟨L, line, [], ps, rfl, hps, hnm, hcont, by simp⟩
    · have hb : (name == nm) = false := by simpa using hname
      have hno : ¬ HasRow cf c k name line := by
        rintro ⟨qs, hq, hqk⟩
        rw [columns_unique cf hne hq hps, hnm] at hqk
        exact hname (Option.some.inj hqk).symm
      have := h name
      simp only [getByName, List.lookup, hb] at this ⊢
      cases hg : List.lookup name tb with
      | none =>
        rw [hg] at this
        intro l hl
        rcases List.mem_append.1 hl with hl | hl
        · exact this l hl
        · simp only [List.mem_singleton] at hl; subst hl; exact hno
      | some r' =>
        rw [hg] at this
        obtain ⟨b, l, a, qs, e, h1, h2, h3, h4⟩ := this
        refine ⟨b, l, a ++ [line], qs, by rw [e]; simp, h1, h2, h3, ?_⟩
        intro l' hl'
        rcases List.mem_append.1 hl' with hl' | hl'
        · exact h4 l' hl'
        · simp only [List.mem_singleton] at hl'; subst hl'; exact hno
  · have htb : onReadData cf tb line = tb := by simp only [onReadData, hp2 hc]
    rw [htb]
    intro name
    have hno : ¬ HasRow cf c k name line := fun ⟨ps, hps, _⟩ => hc ⟨ps, hps⟩
    have := h name
    cases hg : getByName tb name with
    | none =>
      rw [hg] at this
      intro l hl
      rcases List.mem_append.1 hl with hl | hl
      · exact this l hl
      · simp only [List.mem_singleton] at hl; subst hl; exact hno
    | some r' =>
      rw [hg] at this
      obtain ⟨b, l, a, qs, e, h1, h2, h3, h4⟩ := this
      refine ⟨b, l, a ++ [line], qs, by rw [e]; simp, h1, h2, h3, ?_⟩
      intro l' hl'
      rcases List.mem_append.1 hl' with hl' | hl'
      · exact h4 l' hl'
      · simp only [List.mem_singleton] at hl'; subst hl'; exact hno

theorem latest_fold (cf : Cfg J) {c : Char} (hd : cf.delimiter = [c]) {k : Nat}
    (hnd : cf.header.Nodup) (hty : Typed cf) (hk : cf.header[k]? = some cf.primary)
    {col : Column J} (hcol : cf.columns cf.primary = some col) (hs : col.type = .string) :
    ∀ (ls L : List Str) (tb : Table J), Latest cf c k L tb →
      Latest cf c k (L ++ ls) (ls.foldl (onReadData cf) tb) := by
  intro ls
  induction ls with
  | nil => intro L tb h; simpa using h
  | cons l ls ih =>
    intro L tb h
    have := ih (L ++ [l]) _ (latest_step cf hd hnd hty hk hcol hs L tb h l)
    simpa using this

theorem load_spec (cf : Cfg J) {c : Char} (hd : cf.delimiter = [c]) {k : Nat}
    (hnd : cf.header.Nodup) (hty : Typed cf) (hk : cf.header[k]? = some cf.primary)
    {col : Column J} (hcol : cf.columns cf.primary = some col) (hs : col.type = .string) :
    ∀ (fs : List File) (L : List Str) (tb : Table J), (∀ t, File.broken t ∉ fs) → Latest cf c k L tb →
      ∃ lss tb', List.Forall₂ IsLines fs lss ∧ load cf fs tb = some (tb', 0) ∧
        Latest cf c k (L ++ lss.flatten) tb' := by
  intro fs
  induction fs with
  | nil => intro L tb _ h; exact ⟨[], tb, .nil, rfl, by simpa using h⟩
  | cons f fs ih =>
    intro L tb hb h
    have hb' : ∀ t, File.broken t ∉ fs := fun t ht => hb t (List.mem_cons_of_mem _ ht)
    have hf : ∃ ls, fileLines f = some ls ∧ IsLines f ls := by
      cases f with
      | missing => exact ⟨[], rfl, rfl⟩
      | text t => obtain ⟨ls, h1, h2, _⟩ := c91_lines t; exact ⟨ls, h1, h2⟩
      | broken t => exact absurd (List.mem_cons_self ..) (hb t)
    obtain ⟨ls, h1, h2⟩ := hf
    obtain ⟨lss, tb', g1, g2, g3⟩ := ih (L ++ ls) _ hb' (latest_fold cf hd hnd hty hk hcol hs ls L tb h)
    refine ⟨ls :: lss, tb', .cons h2 g1, ?_, ?_⟩
    · simp only [load, h1, Option.bind_some]; exact g2
    · simpa using g3

/-- **C91.** After loading files (those missing are skipped), looking up a name gives nothing if no
line of the files has a row for it, and otherwise the values of the last line that has one.  The
delimiter is one character, the header names are different, every scheme has a type, and the
primary column is a string column of the header. -/
theorem c91_table (cf : Cfg J) {c : Char} (hd : cf.delimiter = [c]) {k : Nat}
    (hnd : cf.header.Nodup) (hty : Typed cf) (hk : cf.header[k]? = some cf.primary)
    {col : Column J} (hcol : cf.columns cf.primary = some col) (hs : col.type = .string)
    (fs : List File) (hb : ∀ t, File.broken t ∉ fs) :
    ∃ lss tb, List.Forall₂ IsLines fs lss ∧ load cf fs [] = some (tb, 0) ∧
      Latest cf c k lss.flatten tb := by
  obtain ⟨lss, tb, h1, h2, h3⟩ := load_spec cf hd hnd hty hk hcol hs fs [] [] hb
    (by intro name; simp [getByName])
  exact ⟨lss, tb, h1, h2, by simpa using h3⟩

/-! ### Values -/

theorem digits_eq (t : Str) : ∀ n, (∀ x ∈ t, x.isDigit = true) →
    digits n t = Nat.ofDigitChars 10 t n := by
  induction t with
  | nil => intro n _; simp [digits]
  | cons x t ih =>
    intro n h
    rw [digits, if_pos (h x (by simp)), ih _ (fun y hy => h y (by simp [hy])),
      Nat.ofDigitChars_cons]
    congr 1
    have : '0'.toNat = 48 := rfl
    omega

theorem digits_repr (n : Nat) : digits 0 (Nat.toDigits 10 n) = n := by
  rw [digits_eq _ _ (fun x hx => Nat.isDigit_of_mem_toDigits (by decide) (by decide) hx)]
  exact Nat.ofDigitChars_ten_toDigits

theorem head_digit {x : Char} (h : x.isDigit = true) : isWs x = false ∧ x ≠ '-' ∧ x ≠ '+' := by
  have h1 : 48 ≤ x.toNat ∧ x.toNat ≤ 57 := by
    simp only [Char.isDigit, Bool.and_eq_true, decide_eq_true_eq] at h
    exact ⟨h.1, h.2⟩
  refine ⟨?_, ?_, ?_⟩
  · simp only [isWs, Bool.or_eq_false_iff, decide_eq_false_iff_not, Bool.and_eq_false_iff]
    refine ⟨?_, Or.inr (by omega)⟩
    rintro rfl
    simp at h1
  · rintro rfl; simp at h1
  · rintro rfl; simp at h1

/-- **C91.** An integer column holds the number its text spells, for every 32-bit number. -/
theorem c91_int (parse : Str → Option J) (col : Column J) (ht : col.type = .int) (n : Nat) :
    (n < 2147483648 → handle parse col (Nat.toDigits 10 n) = some (.int n)) ∧
    (n ≤ 2147483648 → handle parse col ('-' :: Nat.toDigits 10 n) = some (.int (-(n : Int)))) := by
  constructor
  · intro hn
    cases hd : Nat.toDigits 10 n with
    | nil => exact absurd hd Nat.toDigits_ne_nil
    | cons x r =>
      have hx : x.isDigit = true := Nat.isDigit_of_mem_toDigits (b := 10) (n := n) (by decide) (by decide) (by rw [hd]; simp)
      obtain ⟨h1, h2, h3⟩ := head_digit hx
      have hdr : (x :: r).dropWhile isWs = x :: r := by
        rw [List.dropWhile_cons, h1]; rfl
      have hval : digits 0 (x :: r) = n := by rw [← hd]; exact digits_repr n
      simp only [handle, ht, atoi, hdr]
      split
      · rename_i e; simp only [List.cons.injEq] at e; exact absurd e.1 h2
      · rename_i e; simp only [List.cons.injEq] at e; exact absurd e.1 h3
      · rw [hval]
        simp only [toInt32, Option.some.injEq, Val.int.injEq]
        omega
  · intro hn
    have hdr : ('-' :: Nat.toDigits 10 n).dropWhile isWs = '-' :: Nat.toDigits 10 n := by
      rw [List.dropWhile_cons]; rfl
    simp only [handle, ht, atoi, hdr, digits_repr, toInt32, Option.some.injEq, Val.int.injEq]
    omega

/-- **C91.** White space and a plus sign before the number make no difference, and a number too large
for 64 bits is stored as -1, one too small as 0. -/
theorem c91_int_forms (parse : Str → Option J) (col : Column J) (ht : col.type = .int) (n : Nat) (t : Str) :
    handle parse col (' ' :: t) = handle parse col t ∧
    (n < 2147483648 → handle parse col ('+' :: Nat.toDigits 10 n) = some (.int n)) ∧
    (2 ^ 63 ≤ n → handle parse col ('+' :: Nat.toDigits 10 n) = some (.int (-1)) ∧
      handle parse col ('-' :: Nat.toDigits 10 n) = some (.int 0)) := by
  refine ⟨?_, ?_, ?_⟩
  · simp only [handle, ht, atoi]
    rw [List.dropWhile_cons]
    rfl
  · intro hn
    have hdr : ('+' :: Nat.toDigits 10 n).dropWhile isWs = '+' :: Nat.toDigits 10 n := by
      rw [List.dropWhile_cons]; rfl
    simp only [handle, ht, atoi, hdr, digits_repr, toInt32, Option.some.injEq, Val.int.injEq]
    omega
  · intro hn
    have hdr : ('+' :: Nat.toDigits 10 n).dropWhile isWs = '+' :: Nat.toDigits 10 n := by
      rw [List.dropWhile_cons]; rfl
    have hdr2 : ('-' :: Nat.toDigits 10 n).dropWhile isWs = '-' :: Nat.toDigits 10 n := by
      rw [List.dropWhile_cons]; rfl
    simp only [handle, ht, atoi, hdr, hdr2, digits_repr, toInt32, Option.some.injEq, Val.int.injEq]
    omega

/-- **C91.** A string column holds its text, a boolean column whether it is `true`, a JSON column what
the text parses to, and the default if it does not parse. -/
theorem c91_values (parse : Str → Option J) (col : Column J) (t : Str) :
    (col.type = .string → handle parse col t = some (.str t)) ∧
    (col.type = .bool → handle parse col t = some (.bool (t = "true".toList))) ∧
    (col.type = .json → ∀ j, parse t = some j → handle parse col t = some (.json j)) ∧
    (col.type = .json → parse t = none → handle parse col t = some col.dflt) := by
  refine ⟨?_, ?_, ?_, ?_⟩
  · intro h; simp [handle, h]
  · intro h; simp [handle, h]
  · intro h j hj; simp [handle, h, hj]
  · intro h hj; simp [handle, h, hj]

/-! ### Violations -/

/-- The configuration of the unit test (config_test.json), with `ignore_header_line` set. -/
def wCfg : Cfg Unit where
  delimiter := ['#']
  header := ["name".toList, "age".toList]
  columns := fun h =>
    if h = "name".toList then some ⟨.string, .str [], false⟩
    else if h = "age".toList then some ⟨.int, .int 5, true⟩ else none
  primary := "name".toList
  ignoreHeaderLine := true
  parse := fun _ => none

/-- **C91, violation.** `ignore_header_line` is not used: the header line is loaded as a row. -/
theorem c91_header_loaded :
    wCfg.ignoreHeaderLine = true ∧
    (load wCfg [.text "name#age\nbob#30".toList] []).map (fun r => getByName r.1 "name".toList)
      = some (some [("age".toList, .int 0), ("name".toList, .str "name".toList)]) := by
  decide +kernel

/-- **C91, violation.** The default of a column is used for JSON columns only: an empty or a wrong
number is zero, not the default 5. -/
theorem c91_default_unused :
    wCfg.columns "age".toList = some ⟨.int, .int 5, true⟩ ∧
    (load wCfg [.text "bob#\nann#x".toList] []).map (fun r => getByName r.1 "bob".toList)
      = some (some [("age".toList, .int 0), ("name".toList, .str "bob".toList)]) ∧
    (load wCfg [.text "bob#\nann#x".toList] []).map (fun r => getByName r.1 "ann".toList)
      = some (some [("age".toList, .int 0), ("name".toList, .str "ann".toList)]) := by
  decide +kernel

/-- **C91, violation.** Missing files are not reported: loading nothing but missing files succeeds,
for every configuration. -/
theorem c91_missing_succeeds (cf : Cfg J) : ∀ n tb,
    load cf (List.replicate n .missing) tb = some (tb, 0) := by
  intro n
  induction n with
  | zero => intro tb; rfl
  | succ n ih => intro tb; simp only [List.replicate_succ, load, fileLines, Option.bind_some,
      List.foldl_nil]; exact ih tb

/-- **C91, violation.** With a delimiter of two characters the columns are wrong: the second one
begins with the rest of the delimiter. -/
theorem c91_long_delimiter :
    (parseContent { wCfg with delimiter := ['#', '#'] } "bob##30".toList) =
      some [("age".toList, .int 0), ("name".toList, .str "bob".toList)] := by decide +kernel

theorem broken_loop : ∀ (n : Nat) (s : Rd), s.err = true → s.eof = false →
    (lineLoop n s).2 = false ∧ (lineLoop n s).1.length = n := by
  intro n
  induction n with
  | zero => intro s _ h; exact ⟨h, rfl⟩
  | succ n ih =>
    intro s he hf
    have h1 : (getline s).err = true ∧ (getline s).eof = false := by
      unfold getline
      split
      · exact ⟨he, hf⟩
      · split
        · simp [he]
        · exact ⟨he, rfl⟩
    obtain ⟨a, b⟩ := ih (getline s) h1.1 h1.2
    simp only [lineLoop, hf, Bool.false_eq_true, if_false]
    exact ⟨a, by simp [b]⟩

/-- **C91, violation.** A path that can be opened but not read (a directory, a read error) hangs the
loader: however long it runs, the loop is not over, and a line has been delivered in each of its
rounds. -/
theorem c91_broken_hangs (t : Str) (n : Nat) :
    (lineLoop n (openRd t true)).2 = false ∧ (lineLoop n (openRd t true)).1.length = n :=
  broken_loop n _ rfl rfl

/-- Two files and a missing one. -/
def wFiles : List File :=
  [.text "bob#30\nbad\nann#-7\n".toList, .missing, .text "bob#31".toList]

/-- The hypotheses of `c91_table` are met by the configuration above, and the last row wins. -/
theorem w_c91 :
    wCfg.delimiter = ['#'] ∧ wCfg.header.Nodup ∧ wCfg.header[0]? = some wCfg.primary ∧ Typed wCfg ∧
    (load wCfg wFiles []).map (fun r => getByName r.1 "bob".toList)
      = some (some [("age".toList, .int 31), ("name".toList, .str "bob".toList)]) ∧
    (load wCfg wFiles []).map (fun r => getByName r.1 "ann".toList)
      = some (some [("age".toList, .int (-7)), ("name".toList, .str "ann".toList)]) ∧
    (load wCfg wFiles []).map (fun r => getByName r.1 "zoe".toList) = some none := by
  refine ⟨rfl, by decide, by decide, ?_, by decide +kernel, by decide +kernel, by decide +kernel⟩
  intro h _ col hc
  simp only [wCfg] at hc
  split at hc
  · cases hc; simp
  · split at hc
    · cases hc; simp
    · simp at hc

end Ltio.Source
