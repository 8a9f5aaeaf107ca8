/-
Model of replying to requests: `RawRequestContext::Response` (net_io/server/raw_server/raw_server.cc:36-66)
and `HttpRequestCtx::{File,Json,String,Response}` (net_io/server/http_server/http_context.cc:38-107), for one
connection with any number of requests.  Every request has one context object (`Context::New(message)`,
net_io/server/handler_factory.h:21-27) shared by everybody who answers it.

Requests and responses are numbers.  The environment chooses: which context is called by whom and when,
whether the caller is on the connection's loop, whether `SendResponse` succeeds, when posted tasks run
(in posting order, C63), and when the connection object disappears (`codec.lock()` fails from then on).
A posted task owns a reference to the connection (raw_server.cc:58-64, http_context.cc:92-100), so the
connection cannot disappear while one is waiting.

A call is one step (`call`) when nobody else calls the same context meanwhile; two steps (`test`, `act`) when
callers on different threads overlap: `did_reply_` is a plain `bool`, tested first and set later
(raw_server.h:50, raw_server.cc:37-44).

Simplifications: what `SendResponse` writes is the subject of C43, C45, C78; what `CloseService` does of C40.
-/
namespace Ltio.Server.Reply

/-- `did_reply_` of every context; the weak reference to the connection; the tasks posted to its loop;
what was given to `SendResponse` so far; the requests whose reply called `CloseService`; callers between the
test and the reply; whether the process was aborted by `CHECK(false)`. -/
structure St where
  did : Nat → Bool := fun _ => false
  alive : Bool := true
  posted : List (Nat × Nat) := []
  wire : List (Nat × Nat) := []
  closes : List Nat := []
  tested : List (Nat × Nat) := []
  aborted : Bool := false

inductive Lab where
  /-- A whole call answering request `r` with message `m`.  `guarded`: the function tests `did_reply_` first
  (`RawRequestContext::Response`, `Json`, `String`); `false` for `HttpRequestCtx::Response`. -/
  | call (r m : Nat) (guarded onLoop ok : Bool)
  /-- The test of `did_reply_` by one of several overlapping guarded calls. -/
  | test (r m : Nat)
  /-- The rest of such a call. -/
  | act (r m : Nat) (onLoop ok : Bool)
  /-- `HttpRequestCtx::File`. -/
  | file (r : Nat)
  /-- The loop runs the next posted task. -/
  | run (ok : Bool)
  /-- The last reference to the connection is dropped. -/
  | gone
deriving DecidableEq, Repr

/-- `SendResponse`, then `CloseService` if it failed or the request does not keep the connection alive
(raw_server.cc:53-56 with `keep := true`; http_context.cc:103-106). -/
def St.send (keep : Nat → Bool) (s : St) (r m : Nat) (ok : Bool) : St :=
  { s with wire := s.wire ++ [(r, m)], closes := if keep r = true ∧ ok = true then s.closes else s.closes ++ [r] }

/-- `do_response` / `HttpRequestCtx::Response` (raw_server.cc:43-66, http_context.cc:75-107). -/
def St.doResponse (keep : Nat → Bool) (s : St) (r m : Nat) (onLoop ok : Bool) : St :=
  if s.alive = true then
    if onLoop = true then St.send keep { s with did := fun x => x = r || s.did x } r m ok
    else { s with did := fun x => x = r || s.did x, posted := s.posted ++ [(r, m)] }
  else { s with did := fun x => x = r || s.did x }

/-- One step; `keep r` is `IsKeepAlive()` of request `r` (constantly true for raw contexts). -/
def St.step (keep : Nat → Bool) (s : St) (l : Lab) : Option St :=
  if s.aborted = true then none else
  match l with
  | .call r m guarded onLoop ok =>
    if guarded = true ∧ s.did r = true then some s else some (s.doResponse keep r m onLoop ok)
  | .test r m => if s.did r = true then some s else some { s with tested := (r, m) :: s.tested }
  | .act r m onLoop ok =>
    if (r, m) ∈ s.tested then some (St.doResponse keep { s with tested := s.tested.erase (r, m) } r m onLoop ok) else none
  | .file r => if s.did r = true then some s else some { s with aborted := true }
  | .run ok =>
    match s.posted with
    | [] => none
    | (r, m) :: t => some (St.send keep { s with posted := t } r m ok)
  | .gone => if s.posted = [] ∧ s.alive = true then some { s with alive := false } else none

/-- A history of one connection. -/
def St.run (keep : Nat → Bool) (s : St) : List Lab → Option St
  | [] => some s
  | l :: t => match s.step keep l with
    | none => none
    | some s' => St.run keep s' t

/-! ### Specification -/

/-- No two calls of a context overlap, and `File` is not used. -/
def Whole : Lab → Prop
  | .call _ _ _ _ _ => True
  | .run _ => True
  | .gone => True
  | _ => False

/-- Only functions that look whether the request was answered already. -/
def Guarded : Lab → Prop
  | .call _ _ g _ _ => g = true
  | .test _ _ => False
  | .act _ _ _ _ => False
  | _ => True

/-- All answers are given on the loop. -/
def OnLoop : Lab → Prop
  | .call _ _ _ on _ => on = true
  | _ => True

/-- All answers are given from other threads. -/
def OffLoop : Lab → Prop
  | .call _ _ _ on _ => on = false
  | _ => True

/-- What should go to the client: of every request the first answer given while the connection exists
(`seen`: the requests answered before). -/
def firstAnswers (seen : List Nat) : List Lab → List (Nat × Nat)
  | [] => []
  | .gone :: _ => []
  | .call r m _ _ _ :: t => if r ∈ seen then firstAnswers seen t else (r, m) :: firstAnswers (r :: seen) t
  | _ :: t => firstAnswers seen t

/-- The requests somebody answered. -/
def answered : List Lab → List Nat
  | [] => []
  | .call r _ _ _ _ :: t => r :: answered t
  | _ :: t => answered t

/-! ### Lemmas -/

variable {keep : Nat → Bool}

theorem run_cons {s s' : St} {l : Lab} {t : List Lab} (h : s.run keep (l :: t) = some s') :
    ∃ s1, s.step keep l = some s1 ∧ s1.run keep t = some s' := by
  simp only [St.run] at h
  cases hs : s.step keep l with
  | none => rw [hs] at h; simp at h
  | some s1 => rw [hs] at h; exact ⟨s1, rfl, h⟩

theorem run_append (s : St) (a b : List Lab) :
    s.run keep (a ++ b) = (s.run keep a).bind (fun x => x.run keep b) := by
  induction a generalizing s with
  | nil => rfl
  | cons l t ih =>
    simp only [List.cons_append, St.run]
    cases s.step keep l with
    | none => rfl
    | some s1 => exact ih s1

/-- The effect of one step of a history of whole, guarded calls. -/
theorem step_cases {s s1 : St} {l : Lab} (hw : Whole l) (hg : Guarded l) (h : s.step keep l = some s1) :
    (∃ r m on ok, l = .call r m true on ok ∧ s.did r = true ∧ s1 = s) ∨
    (∃ r m on ok, l = .call r m true on ok ∧ s.did r = false ∧ s1 = s.doResponse keep r m on ok) ∨
    (∃ ok r m t, l = .run ok ∧ s.posted = (r, m) :: t ∧ s1 = St.send keep { s with posted := t } r m ok) ∨
    (l = .gone ∧ s.posted = [] ∧ s.alive = true ∧ s1 = { s with alive := false }) := by
  unfold St.step at h
  split at h
  · simp at h
  · cases l with
    | call r m g on ok =>
      simp only [Guarded] at hg
      subst hg
      simp only [] at h
      split at h
      · rename_i hd; exact Or.inl ⟨r, m, on, ok, rfl, hd.2, (Option.some.inj h).symm⟩
      · rename_i hd
        refine Or.inr (Or.inl ⟨r, m, on, ok, rfl, ?_, (Option.some.inj h).symm⟩)
        simpa using hd
    | test r m => exact absurd hw (by simp [Whole])
    | act r m on ok => exact absurd hw (by simp [Whole])
    | file r => exact absurd hw (by simp [Whole])
    | run ok =>
      simp only [] at h
      cases hp : s.posted with
      | nil => rw [hp] at h; simp at h
      | cons a t =>
        rw [hp] at h
        exact Or.inr (Or.inr (Or.inl ⟨ok, a.1, a.2, t, rfl, rfl, (Option.some.inj h).symm⟩))
    | gone =>
      simp only [] at h
      split at h
      · rename_i hd; exact Or.inr (Or.inr (Or.inr ⟨rfl, hd.1, hd.2, (Option.some.inj h).symm⟩))
      · simp at h

/-- Once the connection is gone nothing more is sent. -/
theorem dead_quiet {s s' : St} {h : List Lab} (hw : ∀ l ∈ h, Whole l) (hg : ∀ l ∈ h, Guarded l)
    (hd : s.alive = false) (hp : s.posted = []) (hr : s.run keep h = some s') :
    s'.wire = s.wire ∧ s'.posted = [] ∧ s'.closes = s.closes := by
  induction h generalizing s with
  | nil => simp only [St.run, Option.some.injEq] at hr; subst hr; exact ⟨rfl, hp, rfl⟩
  | cons l t ih =>
    obtain ⟨s1, h1, h2⟩ := run_cons hr
    have hw' := fun x hx => hw x (List.mem_cons_of_mem _ hx)
    have hg' := fun x hx => hg x (List.mem_cons_of_mem _ hx)
    rcases step_cases (hw l List.mem_cons_self) (hg l List.mem_cons_self) h1 with
      ⟨r, m, on, ok, _, _, rfl⟩ | ⟨r, m, on, ok, _, _, rfl⟩ | ⟨ok, r, m, t', _, hq, _⟩ | ⟨_, _, ha, _⟩
    · exact ih hw' hg' hd hp h2
    · have := ih hw' hg' (s := s.doResponse keep r m on ok) (by simp [St.doResponse, hd]) (by simp [St.doResponse, hd, hp]) h2
      simpa [St.doResponse, hd] using this
    · rw [hp] at hq; simp at hq
    · rw [hd] at ha; simp at ha

theorem answers_aux {s s' : St} {h : List Lab} (seen : List Nat) (hseen : ∀ r, r ∈ seen ↔ s.did r = true)
    (hw : ∀ l ∈ h, Whole l) (hg : ∀ l ∈ h, Guarded l) (ha : s.alive = true) (hr : s.run keep h = some s') :
    (s'.wire ++ s'.posted).Perm (s.wire ++ s.posted ++ firstAnswers seen h) := by
  induction h generalizing s seen with
  | nil => simp only [St.run, Option.some.injEq] at hr; subst hr; simp [firstAnswers]
  | cons l t ih =>
    obtain ⟨s1, h1, h2⟩ := run_cons hr
    have hw' := fun x hx => hw x (List.mem_cons_of_mem _ hx)
    have hg' := fun x hx => hg x (List.mem_cons_of_mem _ hx)
    rcases step_cases (hw l List.mem_cons_self) (hg l List.mem_cons_self) h1 with
      ⟨r, m, on, ok, rfl, hd, rfl⟩ | ⟨r, m, on, ok, rfl, hd, rfl⟩ | ⟨ok, r, m, t', rfl, hq, rfl⟩ | ⟨rfl, hq, _, rfl⟩
    · rw [firstAnswers, if_pos ((hseen r).2 hd)]
      exact ih seen hseen hw' hg' ha h2
    · rw [firstAnswers, if_neg (fun hc => by rw [(hseen r).1 hc] at hd; simp at hd)]
      have key := ih (s := s.doResponse keep r m on ok) (r :: seen) (by
        intro x
        have : (s.doResponse keep r m on ok).did = fun x => x = r || s.did x := by
          simp only [St.doResponse, St.send, ha, if_true]; split <;> rfl
        rw [this]; simp [hseen x]) hw' hg' (by simp only [St.doResponse, St.send, ha, if_true]; split <;> rfl) h2
      refine key.trans ?_
      cases on with
      | true =>
        simp only [St.doResponse, St.send, ha, if_true]
        simp only [List.append_assoc]
        refine List.Perm.append_left _ ?_
        simp only [List.singleton_append]
        exact (List.perm_middle).symm
      | false =>
        simp only [St.doResponse, ha, if_true, Bool.false_eq_true, if_false]
        simp [List.append_assoc]
    · rw [firstAnswers]
      · have key := ih (s := St.send keep { s with posted := t' } r m ok) seen (by intro x; exact hseen x) hw' hg' ha h2
        refine key.trans ?_
        simp [St.send, hq, List.append_assoc]
      all_goals simp
    · rw [firstAnswers]
      have := dead_quiet hw' hg' (s := { s with alive := false }) rfl hq h2
      rw [this.1, this.2.1, hq]
      simp

theorem answers_off {s s' : St} {h : List Lab} (seen : List Nat) (hseen : ∀ r, r ∈ seen ↔ s.did r = true)
    (hw : ∀ l ∈ h, Whole l) (hg : ∀ l ∈ h, Guarded l) (ho : ∀ l ∈ h, OffLoop l) (ha : s.alive = true)
    (hr : s.run keep h = some s') :
    s'.wire ++ s'.posted = s.wire ++ s.posted ++ firstAnswers seen h := by
  induction h generalizing s seen with
  | nil => simp only [St.run, Option.some.injEq] at hr; subst hr; simp [firstAnswers]
  | cons l t ih =>
    obtain ⟨s1, h1, h2⟩ := run_cons hr
    have hw' := fun x hx => hw x (List.mem_cons_of_mem _ hx)
    have hg' := fun x hx => hg x (List.mem_cons_of_mem _ hx)
    have ho' := fun x hx => ho x (List.mem_cons_of_mem _ hx)
    rcases step_cases (hw l List.mem_cons_self) (hg l List.mem_cons_self) h1 with
      ⟨r, m, on, ok, rfl, hd, rfl⟩ | ⟨r, m, on, ok, rfl, hd, rfl⟩ | ⟨ok, r, m, t', rfl, hq, rfl⟩ | ⟨rfl, hq, _, rfl⟩
    · rw [firstAnswers, if_pos ((hseen r).2 hd)]
      exact ih seen hseen hw' hg' ho' ha h2
    · rw [firstAnswers, if_neg (fun hc => by rw [(hseen r).1 hc] at hd; simp at hd)]
      have hon : on = false := ho _ List.mem_cons_self
      subst hon
      have key := ih (s := s.doResponse keep r m false ok) (r :: seen) (by
        intro x
        simp [St.doResponse, ha, hseen x]) hw' hg' ho' (by simp [St.doResponse, ha]) h2
      rw [key]
      simp [St.doResponse, ha, List.append_assoc]
    · rw [firstAnswers]
      · have key := ih (s := St.send keep { s with posted := t' } r m ok) seen (by intro x; exact hseen x) hw' hg' ho' ha h2
        rw [key]
        simp [St.send, hq, List.append_assoc]
      all_goals simp
    · rw [firstAnswers]
      have := dead_quiet hw' hg' (s := { s with alive := false }) rfl hq h2
      rw [this.1, this.2.1, hq]
      simp

theorem posted_on {s s' : St} {h : List Lab} (hw : ∀ l ∈ h, Whole l) (hg : ∀ l ∈ h, Guarded l)
    (ho : ∀ l ∈ h, OnLoop l) (hp : s.posted = []) (hr : s.run keep h = some s') : s'.posted = [] := by
  induction h generalizing s with
  | nil => simp only [St.run, Option.some.injEq] at hr; subst hr; exact hp
  | cons l t ih =>
    obtain ⟨s1, h1, h2⟩ := run_cons hr
    refine ih (fun x hx => hw x (List.mem_cons_of_mem _ hx)) (fun x hx => hg x (List.mem_cons_of_mem _ hx))
      (fun x hx => ho x (List.mem_cons_of_mem _ hx)) ?_ h2
    rcases step_cases (hw l List.mem_cons_self) (hg l List.mem_cons_self) h1 with
      ⟨r, m, on, ok, rfl, hd, rfl⟩ | ⟨r, m, on, ok, rfl, hd, rfl⟩ | ⟨ok, r, m, t', rfl, hq, rfl⟩ | ⟨rfl, hq, _, rfl⟩
    · exact hp
    · have hon : on = true := ho _ List.mem_cons_self
      subst hon
      simp only [St.doResponse, St.send, if_true]
      split <;> exact hp
    · rw [hp] at hq; simp at hq
    · exact hp

theorem answers_on {s s' : St} {h : List Lab} (seen : List Nat) (hseen : ∀ r, r ∈ seen ↔ s.did r = true)
    (hw : ∀ l ∈ h, Whole l) (hg : ∀ l ∈ h, Guarded l) (ho : ∀ l ∈ h, OnLoop l) (ha : s.alive = true)
    (hp : s.posted = []) (hr : s.run keep h = some s') :
    s'.wire = s.wire ++ firstAnswers seen h := by
  induction h generalizing s seen with
  | nil => simp only [St.run, Option.some.injEq] at hr; subst hr; simp [firstAnswers]
  | cons l t ih =>
    obtain ⟨s1, h1, h2⟩ := run_cons hr
    have hw' := fun x hx => hw x (List.mem_cons_of_mem _ hx)
    have hg' := fun x hx => hg x (List.mem_cons_of_mem _ hx)
    have ho' := fun x hx => ho x (List.mem_cons_of_mem _ hx)
    rcases step_cases (hw l List.mem_cons_self) (hg l List.mem_cons_self) h1 with
      ⟨r, m, on, ok, rfl, hd, rfl⟩ | ⟨r, m, on, ok, rfl, hd, rfl⟩ | ⟨ok, r, m, t', rfl, hq, rfl⟩ | ⟨rfl, hq, _, rfl⟩
    · rw [firstAnswers, if_pos ((hseen r).2 hd)]
      exact ih seen hseen hw' hg' ho' ha hp h2
    · rw [firstAnswers, if_neg (fun hc => by rw [(hseen r).1 hc] at hd; simp at hd)]
      have hon : on = true := ho _ List.mem_cons_self
      subst hon
      have key := ih (s := s.doResponse keep r m true ok) (r :: seen) (by
        intro x
        simp [St.doResponse, St.send, ha, hseen x]) hw' hg' ho' (by simp [St.doResponse, St.send, ha]) (by simp [St.doResponse, St.send, ha, hp]) h2
      rw [key]
      simp [St.doResponse, St.send, ha, List.append_assoc]
    · rw [hp] at hq; simp at hq
    · rw [firstAnswers]
      have := dead_quiet hw' hg' (s := { s with alive := false }) rfl hq h2
      rw [this.1]
      simp

theorem firstAnswers_fresh (seen : List Nat) (h : List Lab) :
    ((firstAnswers seen h).map Prod.fst).Nodup ∧ ∀ r ∈ (firstAnswers seen h).map Prod.fst, r ∉ seen := by
  fun_induction firstAnswers seen h with
  | case1 => simp
  | case2 => simp
  | case3 seen r m g on ok t hs ih => exact ih
  | case4 seen r m g on ok t hs ih =>
    refine ⟨?_, ?_⟩
    · rw [List.map_cons, List.nodup_cons]
      exact ⟨fun hc => ih.2 r hc List.mem_cons_self, ih.1⟩
    · intro x hx
      rw [List.map_cons, List.mem_cons] at hx
      rcases hx with rfl | hx
      · exact hs
      · exact fun hc => ih.2 x hx (List.mem_cons_of_mem _ hc)
  | case5 seen l t h1 h2 ih => exact ih

theorem closes_aux {s s' : St} {h : List Lab} (hw : ∀ l ∈ h, Whole l) (hg : ∀ l ∈ h, Guarded l)
    (hi : s.closes.Sublist (s.wire.map Prod.fst)) (hk : ∀ r ∈ s.wire.map Prod.fst, keep r = false → r ∈ s.closes)
    (hr : s.run keep h = some s') :
    s'.closes.Sublist (s'.wire.map Prod.fst) ∧ ∀ r ∈ s'.wire.map Prod.fst, keep r = false → r ∈ s'.closes := by
  have send : ∀ (x : St) (r m : Nat) (ok : Bool), x.closes.Sublist (x.wire.map Prod.fst) →
      (∀ r ∈ x.wire.map Prod.fst, keep r = false → r ∈ x.closes) →
      (St.send keep x r m ok).closes.Sublist ((St.send keep x r m ok).wire.map Prod.fst) ∧
      ∀ r' ∈ (St.send keep x r m ok).wire.map Prod.fst, keep r' = false → r' ∈ (St.send keep x r m ok).closes := by
    intro x r m ok h1 h2
    simp only [St.send, List.map_append, List.map_cons, List.map_nil]
    split
    · rename_i hc
      refine ⟨h1.trans (List.sublist_append_left _ _), ?_⟩
      intro r' hr' hk'
      rw [List.mem_append, List.mem_singleton] at hr'
      rcases hr' with hr' | rfl
      · exact h2 r' hr' hk'
      · rw [hk'] at hc; simp at hc
    · refine ⟨h1.append (List.Sublist.refl _), ?_⟩
      intro r' hr' hk'
      rw [List.mem_append, List.mem_singleton] at hr' ⊢
      rcases hr' with hr' | rfl
      · exact Or.inl (h2 r' hr' hk')
      · exact Or.inr rfl
  induction h generalizing s with
  | nil => simp only [St.run, Option.some.injEq] at hr; subst hr; exact ⟨hi, hk⟩
  | cons l t ih =>
    obtain ⟨s1, h1, h2⟩ := run_cons hr
    have hw' := fun x hx => hw x (List.mem_cons_of_mem _ hx)
    have hg' := fun x hx => hg x (List.mem_cons_of_mem _ hx)
    rcases step_cases (hw l List.mem_cons_self) (hg l List.mem_cons_self) h1 with
      ⟨r, m, on, ok, rfl, hd, rfl⟩ | ⟨r, m, on, ok, rfl, hd, rfl⟩ | ⟨ok, r, m, t', rfl, hq, rfl⟩ | ⟨rfl, hq, _, rfl⟩
    · exact ih hw' hg' hi hk h2
    · refine ih hw' hg' ?_ ?_ h2
      · simp only [St.doResponse]
        split
        · split
          · exact (send { s with did := fun x => x = r || s.did x } r m ok hi hk).1
          · exact hi
        · exact hi
      · simp only [St.doResponse]
        split
        · split
          · exact (send { s with did := fun x => x = r || s.did x } r m ok hi hk).2
          · exact hk
        · exact hk
    · exact ih hw' hg' (send { s with posted := t' } r m ok hi hk).1 (send { s with posted := t' } r m ok hi hk).2 h2
    · exact ih (s := { s with alive := false }) hw' hg' hi hk h2

theorem did_aux {s s' : St} {h : List Lab} (hw : ∀ l ∈ h, Whole l) (hr : s.run keep h = some s') (r : Nat) :
    s'.did r = true ↔ s.did r = true ∨ r ∈ answered h := by
  induction h generalizing s with
  | nil => simp only [St.run, Option.some.injEq] at hr; subst hr; simp [answered]
  | cons l t ih =>
    obtain ⟨s1, h1, h2⟩ := run_cons hr
    rw [ih (fun x hx => hw x (List.mem_cons_of_mem _ hx)) h2]
    unfold St.step at h1
    split at h1
    · simp at h1
    · cases l with
      | call q m g on ok =>
        simp only [] at h1
        split at h1
        · rename_i hd
          simp only [Option.some.injEq] at h1; subst h1
          simp only [answered, List.mem_cons]
          constructor
          · rintro (h | h)
            · exact Or.inl h
            · exact Or.inr (Or.inr h)
          · rintro (h | h | h)
            · exact Or.inl h
            · rw [h]; exact Or.inl hd.2
            · exact Or.inr h
        · simp only [Option.some.injEq] at h1; subst h1
          have : (s.doResponse keep q m on ok).did = fun x => x = q || s.did x := by
            simp only [St.doResponse, St.send]; split
            · split <;> rfl
            · rfl
          rw [this]
          simp only [answered, List.mem_cons, Bool.or_eq_true, decide_eq_true_eq]
          constructor
          · rintro ((h | h) | h)
            · exact Or.inr (Or.inl h)
            · exact Or.inl h
            · exact Or.inr (Or.inr h)
          · rintro (h | h | h)
            · exact Or.inl (Or.inr h)
            · exact Or.inl (Or.inl h)
            · exact Or.inr h
      | test q m => exact absurd (hw _ List.mem_cons_self) (by simp [Whole])
      | act q m on ok => exact absurd (hw _ List.mem_cons_self) (by simp [Whole])
      | file q => exact absurd (hw _ List.mem_cons_self) (by simp [Whole])
      | run ok =>
        simp only [] at h1
        cases hp : s.posted with
        | nil => rw [hp] at h1; simp at h1
        | cons a t' => rw [hp] at h1; simp only [Option.some.injEq] at h1; subst h1; simp [St.send, answered]
      | gone =>
        simp only [] at h1
        split at h1
        · simp only [Option.some.injEq] at h1; subst h1; simp [answered]
        · simp at h1

/-! ### Theorems -/

/-- **C142.** If the calls on every context come one at a time and test for an earlier answer
(`RawRequestContext::Response`, `Json`, `String`), then whatever the threads, failures and disconnections, what
was sent or is waiting on the loop is exactly: of every request, the first answer given while the connection
existed.  Nothing is sent twice, invented, or dropped. -/
theorem c142_first_answer {h : List Lab} {s : St} (hw : ∀ l ∈ h, Whole l) (hg : ∀ l ∈ h, Guarded l)
    (hr : St.run keep {} h = some s) : (s.wire ++ s.posted).Perm (firstAnswers [] h) := by
  have := answers_aux (s := {}) [] (by intro r; simp) hw hg rfl hr
  simpa using this

/-- **C142.** Every request gets at most one response. -/
theorem c142_at_most_once {h : List Lab} {s : St} (hw : ∀ l ∈ h, Whole l) (hg : ∀ l ∈ h, Guarded l)
    (hr : St.run keep {} h = some s) : ((s.wire ++ s.posted).map Prod.fst).Nodup :=
  ((c142_first_answer hw hg hr).map Prod.fst).nodup_iff.2 (firstAnswers_fresh [] h).1

/-- **C142.** Once the loop has run what was posted, the first answers are all sent. -/
theorem c142_all_sent {h : List Lab} {s : St} (hw : ∀ l ∈ h, Whole l) (hg : ∀ l ∈ h, Guarded l)
    (hr : St.run keep {} h = some s) (hp : s.posted = []) : s.wire.Perm (firstAnswers [] h) := by
  have := c142_first_answer hw hg hr
  rw [hp, List.append_nil] at this
  exact this

/-- **C142.** Responses leave in the order in which they were given, if all are given on the connection's
loop … -/
theorem c142_order_on_loop {h : List Lab} {s : St} (hw : ∀ l ∈ h, Whole l) (hg : ∀ l ∈ h, Guarded l)
    (ho : ∀ l ∈ h, OnLoop l) (hr : St.run keep {} h = some s) : s.wire = firstAnswers [] h := by
  have := answers_on (s := {}) [] (by intro r; simp) hw hg ho rfl rfl hr
  simpa using this

/-- **C142.** … or all from other threads. -/
theorem c142_order_off_loop {h : List Lab} {s : St} (hw : ∀ l ∈ h, Whole l) (hg : ∀ l ∈ h, Guarded l)
    (ho : ∀ l ∈ h, OffLoop l) (hr : St.run keep {} h = some s) : s.wire ++ s.posted = firstAnswers [] h := by
  have := answers_off (s := {}) [] (by intro r; simp) hw hg ho rfl hr
  simpa using this

/-- **C142.** A reply closes the connection at most once, only after it was handed to the connection, and
always if the request does not keep the connection alive. -/
theorem c142_closes {h : List Lab} {s : St} (hw : ∀ l ∈ h, Whole l) (hg : ∀ l ∈ h, Guarded l)
    (hr : St.run keep {} h = some s) :
    s.closes.Sublist (s.wire.map Prod.fst) ∧ s.closes.Nodup ∧
      ∀ r ∈ s.wire.map Prod.fst, keep r = false → r ∈ s.closes := by
  obtain ⟨h1, h2⟩ := closes_aux (s := {}) hw hg (List.Sublist.refl _) (by intro r hr; simp at hr) hr
  refine ⟨h1, h1.nodup ?_, h2⟩
  have := c142_at_most_once hw hg hr
  rw [List.map_append] at this
  exact (List.nodup_append.1 this).1

/-- The result of `SendResponse` the environment chose for a step. -/
def result : Lab → Option Bool
  | .call _ _ _ _ ok => some ok
  | .act _ _ _ ok => some ok
  | .run ok => some ok
  | _ => none

/-- **C142.** In every step of every history — overlapping calls included — at most one response is handed to the
connection, and `CloseService` is called in that step exactly if sending failed or the request does not keep the
connection alive. -/
theorem c142_send_closes {s s' : St} {l : Lab} (h : s.step keep l = some s') :
    (s'.wire = s.wire ∧ s'.closes = s.closes) ∨
    ∃ r m ok, result l = some ok ∧ s'.wire = s.wire ++ [(r, m)] ∧
      s'.closes = s.closes ++ (if ok = false ∨ keep r = false then [r] else []) := by
  have send : ∀ (x : St) (r m : Nat) (ok : Bool), (St.send keep x r m ok).wire = x.wire ++ [(r, m)] ∧
      (St.send keep x r m ok).closes = x.closes ++ (if ok = false ∨ keep r = false then [r] else []) := by
    intro x r m ok
    refine ⟨rfl, ?_⟩
    simp only [St.send]
    cases ok <;> cases keep r <;> simp
  have resp : ∀ (x : St) (r m : Nat) (on ok : Bool),
      ((x.doResponse keep r m on ok).wire = x.wire ∧ (x.doResponse keep r m on ok).closes = x.closes) ∨
      ((x.doResponse keep r m on ok).wire = x.wire ++ [(r, m)] ∧
        (x.doResponse keep r m on ok).closes = x.closes ++ (if ok = false ∨ keep r = false then [r] else [])) := by
    intro x r m on ok
    simp only [St.doResponse]
    split
    · split
      · exact Or.inr (send { x with did := fun y => y = r || x.did y } r m ok)
      · exact Or.inl ⟨rfl, rfl⟩
    · exact Or.inl ⟨rfl, rfl⟩
  unfold St.step at h
  split at h
  · simp at h
  · cases l with
    | call r m g on ok =>
      simp only [] at h
      split at h
      · simp only [Option.some.injEq] at h; subst h; exact Or.inl ⟨rfl, rfl⟩
      · simp only [Option.some.injEq] at h; subst h
        rcases resp s r m on ok with h1 | h1
        · exact Or.inl h1
        · exact Or.inr ⟨r, m, ok, rfl, h1⟩
    | test r m =>
      simp only [] at h
      split at h
      all_goals simp only [Option.some.injEq] at h; subst h; exact Or.inl ⟨rfl, rfl⟩
    | act r m on ok =>
      simp only [] at h
      split at h
      · simp only [Option.some.injEq] at h; subst h
        rcases resp { s with tested := s.tested.erase (r, m) } r m on ok with h1 | h1
        · exact Or.inl h1
        · exact Or.inr ⟨r, m, ok, rfl, h1⟩
      · simp at h
    | file r =>
      simp only [] at h
      split at h
      all_goals simp only [Option.some.injEq] at h; subst h; exact Or.inl ⟨rfl, rfl⟩
    | run ok =>
      simp only [] at h
      cases hp : s.posted with
      | nil => rw [hp] at h; simp at h
      | cons a t =>
        rw [hp] at h
        simp only [Option.some.injEq] at h
        subst h
        exact Or.inr ⟨a.1, a.2, ok, rfl, send { s with posted := t } a.1 a.2 ok⟩
    | gone =>
      simp only [] at h
      split at h
      · simp only [Option.some.injEq] at h; subst h; exact Or.inl ⟨rfl, rfl⟩
      · simp at h

/-- **C142.** `Responded()` is true exactly of the requests somebody answered. -/
theorem c142_responded {h : List Lab} {s : St} (hw : ∀ l ∈ h, Whole l) (hr : St.run keep {} h = some s) (r : Nat) :
    s.did r = true ↔ r ∈ answered h := by
  have := did_aux hw hr r
  simpa using this

/-- **C142.** Answering is always possible: no history of whole calls is ever stuck on a call. -/
theorem c142_call_enabled {h : List Lab} {s : St} (hw : ∀ l ∈ h, Whole l) (hr : St.run keep {} h = some s)
    (r m : Nat) (g on ok : Bool) : ∃ s', s.step keep (.call r m g on ok) = some s' := by
  have na : ∀ {x : St} {h : List Lab}, (∀ l ∈ h, Whole l) → x.aborted = false → x.run keep h = some s → s.aborted = false := by
    intro x h hw ha hr
    induction h generalizing x with
    | nil => simp only [St.run, Option.some.injEq] at hr; subst hr; exact ha
    | cons l t ih =>
      obtain ⟨s1, h1, h2⟩ := run_cons hr
      refine ih (fun y hy => hw y (List.mem_cons_of_mem _ hy)) ?_ h2
      unfold St.step at h1
      rw [if_neg (by rw [ha]; simp)] at h1
      cases l with
      | call q m g on ok =>
        simp only [] at h1
        split at h1
        · simp only [Option.some.injEq] at h1; subst h1; exact ha
        · simp only [Option.some.injEq] at h1; subst h1
          simp only [St.doResponse, St.send]; split
          · split <;> exact ha
          · exact ha
      | test q m => exact absurd (hw _ List.mem_cons_self) (by simp [Whole])
      | act q m on ok => exact absurd (hw _ List.mem_cons_self) (by simp [Whole])
      | file q => exact absurd (hw _ List.mem_cons_self) (by simp [Whole])
      | run ok =>
        simp only [] at h1
        cases hp : x.posted with
        | nil => rw [hp] at h1; simp at h1
        | cons a t' => rw [hp] at h1; simp only [Option.some.injEq] at h1; subst h1; exact ha
      | gone =>
        simp only [] at h1
        split at h1
        · simp only [Option.some.injEq] at h1; subst h1; exact ha
        · simp at h1
  have ha := na hw rfl hr
  unfold St.step
  rw [if_neg (by rw [ha]; simp)]
  simp only []
  split
  · exact ⟨_, rfl⟩
  · exact ⟨_, rfl⟩

/-! ### Violations -/

/-- **C143, violation.** `HttpRequestCtx::Response` does not look at `did_reply_` (http_context.cc:75-76): called
twice for one request it sends two responses; on a keep-alive connection the client takes the second one for
the answer to its next request. -/
theorem c143_http_twice_violated (r m1 m2 : Nat) : ∃ s : St,
    St.run (fun _ => true) {} [.call r m1 false true true, .call r m2 false true true] = some s ∧
    s.wire = [(r, m1), (r, m2)] := by
  refine ⟨_, rfl, rfl⟩

/-- **C143, violation.** The test and the setting of `did_reply_` are not one step (raw_server.cc:37-44): two
threads answering the same request at the same time both pass the test, and two responses are sent. -/
theorem c143_race_violated (r m1 m2 : Nat) : ∃ s : St,
    St.run (fun _ => true) {} [.test r m1, .test r m2, .act r m1 false true, .act r m2 false true, .run true, .run true] = some s ∧
    s.wire = [(r, m1), (r, m2)] := by
  refine ⟨{ did := fun x => x = r || (x = r || false), wire := [(r, m1), (r, m2)] }, ?_, rfl⟩
  by_cases h : m1 = m2
  · subst h
    simp [St.run, St.step, St.doResponse, St.send]
  · simp [St.run, St.step, St.doResponse, St.send, h, Ne.symm h]

/-- **C143, violation.** Responses to pipelined requests are sent in the order the handlers finish, not in the
order of the requests: request 0 answered from a worker thread, then request 1 answered on the loop, leaves as
1, 0 although the answers were given in order. -/
theorem c143_order_violated (m0 m1 : Nat) : ∃ s : St,
    St.run (fun _ => true) {} [.call 0 m0 true false true, .call 1 m1 true true true, .run true] = some s ∧
    s.wire = [(1, m1), (0, m0)] ∧
    firstAnswers [] [.call 0 m0 true false true, .call 1 m1 true true true, .run true] = [(0, m0), (1, m1)] := by
  refine ⟨_, rfl, rfl, ?_⟩
  simp [firstAnswers]

/-- **C143, violation.** After the reply to a request that does not keep the connection alive has closed it, a
pipelined request's reply is still written, and the connection is closed a second time. -/
theorem c143_close_twice_violated (m0 m1 : Nat) : ∃ s : St,
    St.run (fun _ => false) {} [.call 0 m0 true true true, .call 1 m1 true true true] = some s ∧
    s.wire = [(0, m0), (1, m1)] ∧ s.closes = [0, 1] := by
  refine ⟨_, rfl, rfl, rfl⟩

/-- **C143, violation.** `HttpRequestCtx::File` aborts the process (http_context.cc:38-42) unless the request was
answered before. -/
theorem c143_file_violated (r : Nat) (s : St) (ha : s.aborted = false) (hd : s.did r = false) :
    ∃ s', s.step keep (.file r) = some s' ∧ s'.aborted = true := by
  refine ⟨{ s with aborted := true }, ?_, rfl⟩
  simp [St.step, ha, hd]

/-! ### The hypotheses are met -/

/-- Three requests: answered twice from a worker thread, on the loop, and after the connection is gone. -/
example : ∃ s : St, St.run (fun r => r != 1) {}
      [.call 0 10 true false true, .call 0 11 true true true, .call 1 12 true true true, .run true, .gone, .call 2 13 true true true] = some s ∧
    s.wire = [(1, 12), (0, 10)] ∧ s.closes = [1] := ⟨_, rfl, rfl, rfl⟩

example : firstAnswers [] [.call 0 10 true false true, .call 0 11 true true true, .call 1 12 true true true, .run true, .gone,
    .call 2 13 true true true] = [(0, 10), (1, 12)] := by decide

example : ∀ l ∈ [Lab.call 0 10 true false true, .run true, .gone], Whole l ∧ Guarded l ∧ OffLoop l := by
  simp [Whole, Guarded, OffLoop]

end Ltio.Server.Reply
