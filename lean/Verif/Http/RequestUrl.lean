import Verif.Http.UrlAbsolute

/-
The URL of `HttpRequest` and the views into it (net_io/codec/http/http_message.h:38-46, 127-160,
net_io/codec/http/http_message.cc:111-168).  The views are `string_view`s into the characters of `url_`.
Changing `url_` invalidates them: the generation of a view is the number of changes before it was made, and a
view of another generation than the current one is dangling.
-/
namespace Ltio.Http.RequestUrl
open Ltio.Http.UrlParser

/-- What a view points into: nothing (a default `string_view`), the constant "/" (`kRootPath`,
http_constants.cc:30), or the characters of `url_` after so many changes. -/
inductive Origin | null | root | buf (gen : Nat)
deriving DecidableEq, Repr

/-- A `string_view`. -/
structure View where
  origin : Origin
  off : Nat
  len : Nat

/-- `url_`, how often it was changed, and `url_view_` (http_message.h:38-46, 156-160). -/
structure Req where
  url : List Byte
  gen : Nat
  path : View
  queries : View
  fragment : View

/-- `HttpRequest()` (http_message.cc:111). -/
def Req.new : Req := ⟨[], 0, ⟨.null, 0, 0⟩, ⟨.null, 0, 0⟩, ⟨.null, 0, 0⟩⟩

/-- `RequestUrl` (http_message.cc:130-132). -/
def Req.requestUrl (r : Req) : List Byte := if r.url = [] then [47] else r.url

/-- Where `RequestUrl().data()` points. -/
def Req.origin (r : Req) : Origin := if r.url = [] then .root else .buf r.gen

/-- One `case` of the `switch` (153-165): only fields that are set move their view. -/
def updated (o : Origin) (old : View) : Option (Nat × Nat) → View
  | none => old
  | some v => ⟨o, v.1, v.2⟩

/-- `parse_url_view` (http_message.cc:138-168). -/
def Req.parseView (r : Req) : Req :=
  match parseUrl r.requestUrl false with
  | none => r
  | some u => { r with path := updated r.origin r.path (u.fd .path), queries := updated r.origin r.queries (u.fd .query),
                       fragment := updated r.origin r.fragment (u.fd .fragment) }

/-- `SetRequestURL` (http_message.cc:120-128). -/
def Req.setUrl (r : Req) (url : List Byte) : Req := Req.parseView { r with url := url, gen := r.gen + 1 }

/-- `AppendPartURL` (http_message.cc:115-118). -/
def Req.append (r : Req) (part : List Byte) : Req := Req.parseView { r with url := r.url ++ part, gen := r.gen + 1 }

/-- What reading a view gives; `none`: the view is dangling. -/
def Req.readView (r : Req) (v : View) : Option (List Byte) :=
  match v.origin with
  | .null => some []
  | .root => some (slice [47] (v.off, v.len))
  | .buf g => if g = r.gen then some (slice r.url (v.off, v.len)) else none

/-- `Path()` (http_message.h:138). -/
def Req.readPath (r : Req) : Option (List Byte) := r.readView r.path
def Req.readQueries (r : Req) : Option (List Byte) := r.readView r.queries
def Req.readFragment (r : Req) : Option (List Byte) := r.readView r.fragment

/-! ### Setting the fields only grows -/

theorem loop_keep (b : List Byte) (i : Nat) (s : S) (old : Option UF) (fa : Bool) (fd : FD) (r : Bool × FD)
    (h : loop b i s old fa fd = some r) (x : UF) (hx : (fd x).isSome = true) : (r.2 x).isSome = true := by
  induction b generalizing i s old fa fd with
  | nil => rw [loop] at h; cases h; exact hx
  | cons c b ih =>
    rw [loop] at h
    by_cases hd : step s c = .dead
    · rw [if_pos hd] at h; cases h
    · rw [if_neg hd] at h
      split at h
      · exact ih _ _ _ _ _ h hx
      · refine ih _ _ _ _ _ h ?_
        split
        · unfold FD.bump; split <;> simp [hx]
        · unfold FD.set; split <;> simp [hx]

theorem loop_mono (a b : List Byte) (i : Nat) (s : S) (old : Option UF) (fa : Bool) (fd : FD) (r r' : Bool × FD)
    (h : loop a i s old fa fd = some r) (h' : loop (a ++ b) i s old fa fd = some r') (x : UF) (hx : (r.2 x).isSome = true) :
    (r'.2 x).isSome = true := by
  induction a generalizing i s old fa fd with
  | nil => rw [loop] at h; cases h; exact loop_keep b _ _ _ _ _ _ h' x hx
  | cons c a ih =>
    rw [List.cons_append, loop] at h'
    rw [loop] at h
    by_cases hd : step s c = .dead
    · rw [if_pos hd] at h; cases h
    · rw [if_neg hd] at h h'
      split at h
      · rename_i e; rw [e] at h'; exact ih _ _ _ _ _ h h'
      · rename_i e; rw [e] at h'; exact ih _ _ _ _ _ h h'

/-- The host loop leaves path, query and fragment alone. -/
theorem hloop_other (cs : List Byte) (i : Nat) (s : H) (fd : FD) (r : H × FD) (h : hloop cs i s fd = some r) (x : UF)
    (h1 : x ≠ .host) (h2 : x ≠ .port) (h3 : x ≠ .userinfo) : r.2 x = fd x := by
  induction cs generalizing i s fd with
  | nil => rw [hloop] at h; cases h; rfl
  | cons c cs ih =>
    rw [hloop] at h
    by_cases hd : hstep s c = .dead
    · rw [if_pos hd] at h; cases h
    · rw [if_neg hd] at h
      rw [ih _ _ _ h]
      have hb : ∀ (g : FD) (u : UF), x ≠ u → g.bump u x = g x := fun g u hu => by unfold FD.bump; rw [if_neg hu]
      cases hst : hstep s c <;> simp only [hrecord]
      case host => rw [hb _ _ h1]; split <;> [rw [set_other _ _ _ _ h1]; rfl]
      case v6 => rw [hb _ _ h1]; split <;> [rw [set_other _ _ _ _ h1]; rfl]
      case zoneStart => rw [hb _ _ h1]
      case zone => rw [hb _ _ h1]
      case port => rw [hb _ _ h2]; split <;> [rw [set_other _ _ _ _ h2]; rfl]
      case userinfo => rw [hb _ _ h3]; split <;> [rw [set_other _ _ _ _ h3]; rfl]

/-- Path, query and fragment of a successful parse are those of its first loop. -/
theorem parse_loop (buf : List Byte) (u : Url) (h : parseUrl buf false = some u) :
    ∃ r, loop buf 0 .start none false (fun _ => none) = some r ∧
      ∀ x, x ≠ .host → x ≠ .port → x ≠ .userinfo → u.fd x = r.2 x := by
  unfold parseUrl at h
  by_cases hb : buf = []
  · rw [if_pos hb] at h; cases h
  · rw [if_neg hb] at h
    simp only [Bool.false_eq_true, if_false] at h
    cases hl : loop buf 0 .start none false (fun _ => none) with
    | none => rw [hl] at h; cases h
    | some r =>
      obtain ⟨fa, fd⟩ := r
      rw [hl] at h
      simp only [false_and, if_false] at h
      refine ⟨(fa, fd), rfl, ?_⟩
      intro x h1 h2 h3
      by_cases hsn : (fd .schema).isSome = true ∧ (fd .host).isNone = true
      · rw [if_pos hsn] at h; cases h
      · rw [if_neg hsn] at h
        have key : ∀ fd1, (if (fd .host).isSome = true then parseHost buf fd fa else some fd) = some fd1 → fd1 x = fd x := by
          intro fd1 he
          by_cases hh : (fd .host).isSome = true
          · rw [if_pos hh] at he
            unfold parseHost at he
            cases hfh : fd .host with
            | none => rw [hfh] at he; cases he
            | some w =>
              obtain ⟨off, len⟩ := w
              rw [hfh] at he
              simp only [] at he
              cases hlo : hloop (slice buf (off, len)) off (if fa then .userinfoStart else .hostStart) (fd.set .host (off, 0)) with
              | none => rw [hlo] at he; cases he
              | some r =>
                rw [hlo] at he
                obtain ⟨s, fd'⟩ := r
                simp only [] at he
                have := hloop_other _ _ _ _ _ hlo x h1 h2 h3
                rw [set_other _ _ _ _ h1] at this
                by_cases hbad' : hbad s = true
                · rw [if_pos hbad'] at he; cases he
                · rw [if_neg hbad'] at he; cases he; exact this
          · rw [if_neg hh] at he; cases he; rfl
        split at h
        · cases h
        · rename_i fd1 he
          have hk := key fd1 he
          split at h
          · cases h; exact hk
          · split at h
            · cases h
            · cases h; exact hk

/-- Fields of a URL that parses are also set for every longer URL that parses. -/
theorem parse_mono (a b : List Byte) (u u' : Url) (h : parseUrl a false = some u) (h' : parseUrl (a ++ b) false = some u')
    (x : UF) (h1 : x ≠ .host) (h2 : x ≠ .port) (h3 : x ≠ .userinfo) (hx : (u.fd x).isSome = true) : (u'.fd x).isSome = true := by
  obtain ⟨r, hr, er⟩ := parse_loop a u h
  obtain ⟨r', hr', er'⟩ := parse_loop (a ++ b) u' h'
  rw [er x h1 h2 h3] at hx
  rw [er' x h1 h2 h3]
  exact loop_mono a b _ _ _ _ _ r r' hr hr' x hx

/-! ### The views of a request -/

/-- A view is still the default one, or points into the characters of a beginning of the URL whose parse set
the field. -/
def Traced (r : Req) (v : View) (x : UF) : Prop :=
  v = ⟨.null, 0, 0⟩ ∨ ∃ a b u, r.url = a ++ b ∧ parseUrl a false = some u ∧ (u.fd x).isSome = true

theorem append_url (r : Req) (p : List Byte) : (r.append p).url = r.url ++ p ∧ (r.append p).gen = r.gen + 1 := by
  unfold Req.append Req.parseView
  split <;> exact ⟨rfl, rfl⟩

theorem traced_append (r : Req) (p : List Byte) (hp : p ≠ []) (h1 : Traced r r.path .path) (h2 : Traced r r.queries .query)
    (h3 : Traced r r.fragment .fragment) : Traced (r.append p) (r.append p).path .path ∧
      Traced (r.append p) (r.append p).queries .query ∧ Traced (r.append p) (r.append p).fragment .fragment := by
  have ext : ∀ (v : View) (x : UF), Traced r v x → Traced (r.append p) v x := by
    intro v x h
    rcases h with h | ⟨a, b, u, e1, e2, e3⟩
    · exact Or.inl h
    · exact Or.inr ⟨a, b ++ p, u, by rw [(append_url r p).1, e1, List.append_assoc], e2, e3⟩
  have hne : r.url ++ p ≠ [] := by simp [hp]
  cases hpu : parseUrl (r.url ++ p) false with
  | none =>
    have e : r.append p = { r with url := r.url ++ p, gen := r.gen + 1 } := by
      unfold Req.append Req.parseView Req.requestUrl
      rw [if_neg hne, hpu]
    have := ext r.path .path h1
    have := ext r.queries .query h2
    have := ext r.fragment .fragment h3
    rw [e] at *
    exact ⟨by assumption, by assumption, by assumption⟩
  | some u =>
    have e : r.append p = ⟨r.url ++ p, r.gen + 1, updated (.buf (r.gen + 1)) r.path (u.fd .path),
        updated (.buf (r.gen + 1)) r.queries (u.fd .query), updated (.buf (r.gen + 1)) r.fragment (u.fd .fragment)⟩ := by
      unfold Req.append Req.parseView Req.requestUrl Req.origin
      rw [if_neg hne, hpu, if_neg hne]
    have upd : ∀ (v : View) (x : UF), Traced r v x → Traced (r.append p) (updated (.buf (r.gen + 1)) v (u.fd x)) x := by
      intro v x h
      cases hx : u.fd x with
      | none => exact ext v x h
      | some w => exact Or.inr ⟨r.url ++ p, [], u, by rw [(append_url r p).1, List.append_nil], hpu, by rw [hx]; rfl⟩
    have q1 := upd r.path .path h1
    have q2 := upd r.queries .query h2
    have q3 := upd r.fragment .fragment h3
    rw [e] at q1 q2 q3 ⊢
    exact ⟨q1, q2, q3⟩

/-- After appending, a view whose field the whole URL has reads it, and the others are the default. -/
theorem read_append (r : Req) (p : List Byte) (u : Url) (hu : parseUrl (r.url ++ p) false = some u) (v : View) (x : UF)
    (h1 : x ≠ .host) (h2 : x ≠ .port) (h3 : x ≠ .userinfo) (ht : Traced r v x) :
    (r.append p).readView (updated (.buf (r.gen + 1)) v (u.fd x)) = some ((u.read (r.url ++ p) x).getD []) := by
  unfold Url.read
  cases hx : u.fd x with
  | some w =>
    simp only [updated, Req.readView, (append_url r p).1, (append_url r p).2, if_true, Option.map_some, Option.getD_some]
  | none =>
    simp only [updated, Option.map_none, Option.getD_none]
    rcases ht with rfl | ⟨a, b, ua, e1, e2, e3⟩
    · rfl
    · have : (u.fd x).isSome = true := parse_mono a (b ++ p) ua u e2 (by rw [← List.append_assoc, ← e1]; exact hu) x h1 h2 h3 e3
      rw [hx] at this
      cases this

/-- **C121 (URL in pieces)**: for every way to deliver a URL in non-empty pieces, if the whole URL parses then
`Path()`, and the views of query and fragment, read exactly the parts of the whole URL (nothing for an absent
part) and do not dangle, whatever the parser said to the pieces. -/
theorem c121_pieces (ps : List (List Byte)) (hne : ps ≠ []) (hp : ∀ p ∈ ps, p ≠ []) (u : Url)
    (hu : parseUrl ps.flatten false = some u) :
    (ps.foldl Req.append Req.new).requestUrl = ps.flatten ∧
    (ps.foldl Req.append Req.new).readPath = some ((u.read ps.flatten .path).getD []) ∧
    (ps.foldl Req.append Req.new).readQueries = some ((u.read ps.flatten .query).getD []) ∧
    (ps.foldl Req.append Req.new).readFragment = some ((u.read ps.flatten .fragment).getD []) := by
  have inv : ∀ (ps : List (List Byte)) (r : Req), (∀ p ∈ ps, p ≠ []) → Traced r r.path .path → Traced r r.queries .query →
      Traced r r.fragment .fragment → (ps.foldl Req.append r).url = r.url ++ ps.flatten ∧
        Traced (ps.foldl Req.append r) (ps.foldl Req.append r).path .path ∧
        Traced (ps.foldl Req.append r) (ps.foldl Req.append r).queries .query ∧
        Traced (ps.foldl Req.append r) (ps.foldl Req.append r).fragment .fragment := by
    intro ps
    induction ps with
    | nil => intro r _ h1 h2 h3; exact ⟨by simp, h1, h2, h3⟩
    | cons p ps ih =>
      intro r hp h1 h2 h3
      obtain ⟨t1, t2, t3⟩ := traced_append r p (hp p (by simp)) h1 h2 h3
      obtain ⟨e, g⟩ := ih (r.append p) (fun q hq => hp q (by simp [hq])) t1 t2 t3
      rw [List.foldl_cons]
      refine ⟨?_, g⟩
      rw [e, (append_url r p).1]
      simp
  obtain ⟨qs, p, rfl⟩ : ∃ qs p, ps = qs ++ [p] := ⟨ps.dropLast, ps.getLast hne, (List.dropLast_concat_getLast hne).symm⟩
  obtain ⟨e, t1, t2, t3⟩ := inv qs Req.new (fun q hq => hp q (by simp [hq])) (Or.inl rfl) (Or.inl rfl) (Or.inl rfl)
  rw [List.foldl_append, List.foldl_cons, List.foldl_nil]
  have hpne : p ≠ [] := hp p (by simp)
  generalize hr : qs.foldl Req.append Req.new = r at *
  have hfl : (qs ++ [p]).flatten = r.url ++ p := by rw [e]; simp [Req.new]
  rw [hfl] at hu ⊢
  have hn : r.url ++ p ≠ [] := by simp [hpne]
  have ea : r.append p = ⟨r.url ++ p, r.gen + 1, updated (.buf (r.gen + 1)) r.path (u.fd .path),
      updated (.buf (r.gen + 1)) r.queries (u.fd .query), updated (.buf (r.gen + 1)) r.fragment (u.fd .fragment)⟩ := by
    unfold Req.append Req.parseView Req.requestUrl Req.origin
    rw [if_neg hn, hu, if_neg hn]
  refine ⟨?_, ?_, ?_, ?_⟩
  · unfold Req.requestUrl
    rw [(append_url r p).1, if_neg hn]
  · have := read_append r p u hu r.path .path (by decide) (by decide) (by decide) t1
    rw [← this]; rw [ea]; rfl
  · have := read_append r p u hu r.queries .query (by decide) (by decide) (by decide) t2
    rw [← this]; rw [ea]; rfl
  · have := read_append r p u hu r.fragment .fragment (by decide) (by decide) (by decide) t3
    rw [← this]; rw [ea]; rfl

/-- **C121 (request target)**: for every origin-form target below 64 KiB, delivered in any non-empty pieces,
`Path()` is exactly its path. -/
theorem c121_target (t : Target) (hp : PathOk t.path) (ht : t.TailOk) (hlen : t.text.length < 65536) (ps : List (List Byte))
    (hps : ∀ p ∈ ps, p ≠ []) (hfl : ps.flatten = t.text) : (ps.foldl Req.append Req.new).readPath = some t.path ∧
      (ps.foldl Req.append Req.new).readQueries = some (t.query.getD []) ∧
      (ps.foldl Req.append Req.new).readFragment = some (t.frag.getD []) := by
  obtain ⟨u, hu, r1, r2, r3, _⟩ := c120_origin t hp ht hlen
  have hne : ps ≠ [] := by
    rintro rfl
    obtain ⟨c, r, hpc, _⟩ := hp
    unfold Target.text at hfl
    rw [hpc] at hfl
    simp at hfl
  rw [← hfl] at hu r1 r2 r3
  obtain ⟨_, h1, h2, h3⟩ := c121_pieces ps hne hps u hu
  rw [h1, h2, h3, r1, r2, r3, nonEmpty_getD, nonEmpty_getD]
  refine ⟨rfl, ?_, ?_⟩
  · split
    · rename_i e; rw [e]; rfl
    · rfl
  · split
    · rename_i e; rw [e]; rfl
    · rfl

/-- Setting the URL of a new request is delivering it in one piece. -/
theorem setUrl_new (url : List Byte) : Req.new.setUrl url = Req.new.append url := by
  unfold Req.setUrl Req.append
  rfl

/-- **C121 (URL of a new request)**: `SetRequestURL` on a new request with any origin-form target below 64 KiB:
`Path()` is its path. -/
theorem c121_set (t : Target) (hp : PathOk t.path) (ht : t.TailOk) (hlen : t.text.length < 65536) :
    (Req.new.setUrl t.text).readPath = some t.path := by
  have hne : t.text ≠ [] := by
    obtain ⟨c, r, hpc, _⟩ := hp
    unfold Target.text
    rw [hpc]
    simp
  have := (c121_target t hp ht hlen [t.text] (by simpa using hne) (by simp)).1
  rw [setUrl_new]
  exact this

/-- A new URL always gives a `Path()` that can be read, if it has a path. -/
theorem c121_reset (r : Req) (url : List Byte) (hne : url ≠ []) (u : Url) (hu : parseUrl url false = some u) (p : List Byte)
    (hp : u.read url .path = some p) : (r.setUrl url).readPath = some p := by
  unfold Url.read at hp
  cases hx : u.fd .path with
  | none => rw [hx] at hp; cases hp
  | some w =>
    rw [hx] at hp
    have e : (r.setUrl url).path = ⟨.buf (r.gen + 1), w.1, w.2⟩ ∧ (r.setUrl url).url = url ∧ (r.setUrl url).gen = r.gen + 1 := by
      unfold Req.setUrl Req.parseView Req.requestUrl Req.origin
      rw [if_neg hne, hu, if_neg hne]
      simp only [hx, updated, and_self]
    unfold Req.readPath Req.readView
    rw [e.1, e.2.1, e.2.2]
    simp only [if_true]
    cases hp
    rfl

/-- Whatever happened before, if the new URL does not parse or has no path, the view of `Path()` is kept. -/
theorem setUrl_keeps (r : Req) (url : List Byte) (hne : url ≠ [])
    (h : parseUrl url false = none ∨ ∃ u, parseUrl url false = some u ∧ u.fd .path = none) :
    (r.setUrl url).path = r.path ∧ (r.setUrl url).gen = r.gen + 1 := by
  unfold Req.setUrl Req.parseView Req.requestUrl
  simp only [if_neg hne]
  rcases h with h | ⟨u, h, hx⟩
  · rw [h]; exact ⟨rfl, rfl⟩
  · rw [h]; simp only [hx, updated, and_self]

/-- **C121 (replacing a URL)**: violation.  After a URL with a path, setting a URL that does not parse, or one
without a path such as `http://h`, leaves `Path()` pointing into the characters of the old URL. -/
theorem c121_replace_violated (r : Req) (a b : List Byte) (hane : a ≠ []) (hbne : b ≠ []) (u : Url) (ha : parseUrl a false = some u)
    (hp : (u.fd .path).isSome = true)
    (hb : parseUrl b false = none ∨ ∃ u', parseUrl b false = some u' ∧ u'.fd .path = none) :
    ((r.setUrl a).setUrl b).readPath = none := by
  obtain ⟨w, hw⟩ := Option.isSome_iff_exists.mp hp
  have e : (r.setUrl a).path = ⟨.buf (r.gen + 1), w.1, w.2⟩ ∧ (r.setUrl a).gen = r.gen + 1 := by
    unfold Req.setUrl Req.parseView Req.requestUrl Req.origin
    rw [if_neg hane, ha, if_neg hane]
    simp only [hw, updated, and_self]
  obtain ⟨k1, k2⟩ := setUrl_keeps (r.setUrl a) b hbne hb
  unfold Req.readPath Req.readView
  rw [k1, k2, e.1, e.2]
  simp

/-- **C121 (pieces of a bad URL)**: violation.  If a first piece parses and has a path but the URL with the
second piece does not, `Path()` points into the characters the string had before. -/
theorem c121_pieces_violated (a b : List Byte) (hane : a ≠ []) (u : Url) (ha : parseUrl a false = some u)
    (hp : (u.fd .path).isSome = true) (hb : parseUrl (a ++ b) false = none) : ((Req.new.append a).append b).readPath = none := by
  obtain ⟨w, hw⟩ := Option.isSome_iff_exists.mp hp
  have e : (Req.new.append a).path = ⟨.buf 1, w.1, w.2⟩ ∧ (Req.new.append a).gen = 1 ∧ (Req.new.append a).url = a := by
    unfold Req.append Req.parseView Req.requestUrl Req.origin Req.new
    simp only [List.nil_append]
    rw [if_neg hane, ha, if_neg hane]
    simp only [hw, updated, and_self]
  have hn : a ++ b ≠ [] := by simp [hane]
  have k : ((Req.new.append a).append b).path = ⟨.buf 1, w.1, w.2⟩ ∧ ((Req.new.append a).append b).gen = 2 := by
    generalize Req.new.append a = r at e
    unfold Req.append Req.parseView Req.requestUrl
    simp only [e.2.2, if_neg hn, hb]
    exact ⟨e.1, by rw [e.2.1]⟩
  unfold Req.readPath Req.readView
  rw [k.1, k.2]
  simp

/-- **C121 (no URL)**: a request whose URL is set to nothing has the root path. -/
theorem c121_empty (r : Req) : (r.setUrl []).readPath = some [47] ∧ (r.setUrl []).requestUrl = [47] := ⟨rfl, rfl⟩

/-! ### Examples -/

/-- `/a` in one piece and a second piece with a space: the hypotheses of the violations are met. -/
example : (∃ u, parseUrl [47, 97] false = some u ∧ (u.fd .path).isSome = true) ∧ parseUrl ([47, 97] ++ [32]) false = none :=
  ⟨⟨_, rfl, rfl⟩, rfl⟩

/-- `/x`, then `http://h`. -/
example : ((Req.new.setUrl [47, 120]).setUrl [104, 116, 116, 112, 58, 47, 47, 104]).readPath = none := rfl

/-- `ht`, `tp://h/a`, `?q`: two of the three strings on the way do or do not parse; the path is `/a`. -/
example : ([[104, 116], [116, 112, 58, 47, 47, 104, 47, 97], [63, 113]].foldl Req.append Req.new).readPath = some [47, 97] := rfl

end Ltio.Http.RequestUrl
