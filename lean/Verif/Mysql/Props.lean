import Verif.Mysql.Model
import Mathlib.Tactic.ByContra
/-
C191 and C192: queries given to an asynchronous mysql connection.
-/
namespace Ltio.Mysql

/-! ### Invariant -/

/-- States in which a query is being worked on. -/
def busy : S → Bool
  | .selectStart | .selectWait | .selectDone | .queryStart | .queryWait | .resultReady | .fetchStart | .fetchWait | .fetchReady => true
  | _ => false

/-- Queries not yet answered, the one being worked on first. -/
def pending (c : Con) : List Query := c.inproc.toList.map Prod.fst ++ c.queue

structure Inv (g : List Query) (c : Con) : Prop where
  order : c.done.map Prod.fst ++ pending c = g
  inproc : c.gone = false → c.inproc.isSome = busy c.st
  noInit : c.st ≠ .connectInit
  lastDb : c.st ≠ .selectDone → c.lastDb ≠ [] → c.selected = c.lastDb
  sel : ∀ q rows, c.inproc = some (q, rows) → c.st = .selectDone → c.selected = q.db
  que : ∀ q rows, c.inproc = some (q, rows) → c.st = .queryStart → q.db ≠ [] → c.selected = q.db
  exec : ∀ x ∈ c.executed, x.1.db ≠ [] → x.2 = x.1.db
  conn : c.st = .connectStart ∨ c.st = .connectWait → c.selected = c.dbname
  conn2 : c.st = .connectDone → (c.running = true ∧ c.selected = c.dbname) ∨ (c.running = false ∧ c.fdev = false)
  ended : c.gone = true → c.running = false ∧ c.fdev = false ∧ pending c = []
  run2 : c.st = .selectDone → c.running = true

theorem Inv.iter {g : List Query} {c : Con} (h : Inv g c) (hr : c.running = true) (hg : c.gone = false) (l : Lib) :
    ∃ c', c.iter l = some c' ∧ Inv g c' ∧ c'.gone = false := by
  obtain ⟨o, ip, ni, ld, se, qu, ex, co, co2, en, r2⟩ := h
  obtain ⟨st, err, dbname, ret, cur, lastDb, inproc, queue, ready, sched, fdev, running, gone, done, selected, executed⟩ := c
  simp only at hr hg ip ni ld se qu ex co co2 r2
  subst hr hg
  simp only [pending] at o
  simp only [true_implies] at ip
  cases st <;> simp only [busy, Option.isSome_iff_exists, Option.isSome_eq_false_iff, Option.isNone_iff_eq_none, reduceCtorEq, true_implies, false_implies,
      implies_true, ne_eq, not_true_eq_false, not_false_eq_true, or_self, or_true, or_false, false_and] at ip ni ld se qu co co2 r2
  case connectStart | connectWait =>
    subst ip
    refine ⟨_, rfl, ?_, ?_⟩ <;> cases hw : l.wait <;> simp only [Con.next, hw, if_true, if_false, Bool.false_eq_true]
    · exact ⟨o, fun _ => rfl, by simp, fun _ => ld, by simp, by simp, ex, by simp, fun _ => .inl ⟨rfl, co⟩, by simp, by simp⟩
    · exact ⟨o, fun _ => rfl, by simp, fun _ => ld, by simp, by simp, ex, fun _ => co, by simp, by simp, by simp⟩
  case connectDone =>
    subst ip
    have hc : selected = dbname := by simpa using co2
    cases ret
    · exact ⟨_, rfl, ⟨o, fun _ => rfl, by simp, fun _ => ld, by simp, by simp, ex, by simp, by simp, by simp, by simp⟩, rfl⟩
    · exact ⟨_, rfl, ⟨o, fun _ => rfl, by simp, fun _ _ => hc, by simp, by simp, ex, by simp, by simp, by simp, by simp⟩, rfl⟩
  case closeStart | closeWait =>
    subst ip
    refine ⟨_, rfl, ?_, ?_⟩ <;> cases hw : l.wait <;> simp only [Con.next, hw, if_true, if_false, Bool.false_eq_true] <;>
      exact ⟨o, fun _ => rfl, by simp, fun _ => ld, by simp, by simp, ex, by simp, by simp, by simp, by simp⟩
  case closeDone =>
    subst ip
    refine ⟨_, rfl, ⟨?_, fun _ => rfl, by simp, fun _ => ld, by simp [Con.cleanUp, Con.endAll], by simp, ex, by simp, fun _ => .inr ⟨rfl, rfl⟩, by simp [Con.cleanUp, Con.endAll], by simp⟩, rfl⟩
    simp only [Con.cleanUp, Con.endAll, pending, Option.toList_none, List.map_nil, List.nil_append, List.append_nil, List.map_append, List.map_map]
    rw [← o]
    simp [Function.comp_def]
  case idle =>
    subst ip
    cases queue with
    | nil =>
      cases sched <;>
        exact ⟨_, rfl, ⟨o, fun _ => rfl, by simp, fun _ => ld, by simp, by simp, ex, by simp, by simp, by simp, by simp⟩, rfl⟩
    | cons q t =>
      simp only [Con.iter, Option.isSome_none, Bool.false_eq_true, if_false]
      by_cases hq : q.db ≠ [] ∧ q.db ≠ lastDb
      · rw [if_pos hq]
        exact ⟨_, rfl, ⟨by simpa [pending] using o, fun _ => rfl, by simp, fun _ => ld, by simp, by simp, ex, by simp, by simp, by simp, by simp⟩, rfl⟩
      · rw [if_neg hq]
        refine ⟨_, rfl, ⟨by simpa [pending] using o, fun _ => rfl, by simp, fun _ => ld, by simp, ?_, ex, by simp, by simp, by simp, by simp⟩, rfl⟩
        intro q' rows he _ hne
        simp only [Option.some.injEq, Prod.mk.injEq] at he
        obtain ⟨rfl, _⟩ := he
        have : q.db = lastDb := by
          by_contra hc
          exact hq ⟨hne, hc⟩
        simp only at ld ⊢
        rw [this] at hne ⊢
        exact ld hne
  case selectStart | selectWait =>
    obtain ⟨⟨q, rows⟩, rfl⟩ := ip
    simp only [Con.iter]
    by_cases hw : l.wait = false ∧ l.ret ≠ 0
    · rw [if_pos hw]
      refine ⟨_, rfl, ?_, rfl⟩
      simp only [Con.doneCurrent, Con.after]
      cases isFatal l.ret <;>
        exact ⟨by simpa [pending] using o, fun _ => rfl, by simp, fun _ => ld, by simp, by simp, ex, by simp, by simp, by simp, by simp⟩
    · rw [if_neg hw]
      cases hw2 : l.wait <;> simp only [Con.next, if_true, if_false, Bool.false_eq_true]
      · refine ⟨_, rfl, ⟨by simpa [pending] using o, fun _ => rfl, by simp, by simp, ?_, by simp, ex, by simp, by simp, by simp, by simp⟩, rfl⟩
        intro q' rows' he _
        simp only [Option.some.injEq, Prod.mk.injEq] at he
        rw [← he.1]
      · exact ⟨_, rfl, ⟨by simpa [pending] using o, fun _ => rfl, by simp, fun _ => ld, by simp, by simp, ex, by simp, by simp, by simp, by simp⟩, rfl⟩
  case selectDone =>
    obtain ⟨⟨q, rows⟩, rfl⟩ := ip
    have hs : selected = q.db := se q rows rfl
    simp only [Con.iter]
    by_cases hq : q.sql = []
    · rw [if_pos hq]
      exact ⟨_, rfl, ⟨by simpa [pending, Con.doneCurrent] using o, fun _ => rfl, by simp, fun _ _ => hs, by simp, by simp, ex, by simp, by simp, by simp [Con.doneCurrent], by simp⟩, rfl⟩
    · rw [if_neg hq]
      refine ⟨_, rfl, ⟨by simpa [pending] using o, fun _ => rfl, by simp, fun _ _ => hs, by simp, ?_, ex, by simp, by simp, by simp, by simp⟩, rfl⟩
      intro q' rows' he _ _
      simp only [Option.some.injEq, Prod.mk.injEq] at he
      rw [← he.1]; exact hs
  case queryStart =>
    obtain ⟨⟨q, rows⟩, rfl⟩ := ip
    have hs : q.db ≠ [] → selected = q.db := qu q rows rfl
    have hx : ∀ x ∈ executed ++ [(q, selected)], x.1.db ≠ [] → x.2 = x.1.db := by
      intro x hx
      rcases List.mem_append.1 hx with hx | hx
      · exact ex x hx
      · rw [List.mem_singleton.1 hx]; exact hs
    simp only [Con.iter]
    by_cases hq : q.sql = []
    · rw [if_pos hq]
      exact ⟨_, rfl, ⟨by simpa [pending, Con.doneCurrent] using o, fun _ => rfl, by simp, fun _ => ld, by simp, by simp, ex, by simp, by simp, by simp [Con.doneCurrent], by simp⟩, rfl⟩
    · rw [if_neg hq]
      by_cases hw : l.wait = false ∧ l.ret ≠ 0
      · rw [if_pos hw]
        refine ⟨_, rfl, ?_, rfl⟩
        simp only [Con.doneCurrent, Con.after]
        cases isFatal l.ret <;>
          exact ⟨by simpa [pending] using o, fun _ => rfl, by simp, fun _ => ld, by simp, by simp, hx, by simp, by simp, by simp, by simp⟩
      · rw [if_neg hw]
        cases hw2 : l.wait <;> simp only [Con.next, if_true, if_false, Bool.false_eq_true] <;>
          exact ⟨_, rfl, ⟨by simpa [pending] using o, fun _ => rfl, by simp, fun _ => ld, by simp, by simp, hx, by simp, by simp, by simp, by simp⟩, rfl⟩
  case queryWait =>
    obtain ⟨⟨q, rows⟩, rfl⟩ := ip
    simp only [Con.iter, Option.isNone_some, Bool.false_eq_true, if_false]
    by_cases he : err ≠ 0
    · rw [if_pos he]
      refine ⟨_, rfl, ?_, rfl⟩
      simp only [Con.doneCurrent, Con.after]
      cases isFatal (if l.wait = true then 0 else l.ret) <;>
        exact ⟨by simpa [pending] using o, fun _ => rfl, by simp, fun _ => ld, by simp, by simp, ex, by simp, by simp, by simp, by simp⟩
    · rw [if_neg he]
      cases hw2 : l.wait <;> simp only [Con.next, if_true, if_false, Bool.false_eq_true] <;>
        exact ⟨_, rfl, ⟨by simpa [pending] using o, fun _ => rfl, by simp, fun _ => ld, by simp, by simp, ex, by simp, by simp, by simp, by simp⟩, rfl⟩
  case resultReady =>
    obtain ⟨⟨q, rows⟩, rfl⟩ := ip
    simp only [Con.iter, Option.isNone_some, Bool.false_eq_true, if_false]
    cases l.has <;> simp only [if_true, if_false, Bool.false_eq_true]
    · refine ⟨_, rfl, ?_, rfl⟩
      simp only [Con.doneCurrent, Con.after]
      cases isFatal l.errno <;>
        exact ⟨by simpa [pending] using o, fun _ => rfl, by simp, fun _ => ld, by simp, by simp, ex, by simp, by simp, by simp, by simp⟩
    · exact ⟨_, rfl, ⟨by simpa [pending] using o, fun _ => rfl, by simp, fun _ => ld, by simp, by simp, ex, by simp, by simp, by simp, by simp⟩, rfl⟩
  case fetchStart | fetchWait =>
    obtain ⟨⟨q, rows⟩, rfl⟩ := ip
    refine ⟨_, rfl, ?_, ?_⟩ <;> cases hw : l.wait <;> simp only [Con.next, hw, if_true, if_false, Bool.false_eq_true] <;>
      exact ⟨by simpa [pending] using o, fun _ => rfl, by simp, fun _ => ld, by simp, by simp, ex, by simp, by simp, by simp, by simp⟩
  case fetchReady =>
    obtain ⟨⟨q, rows⟩, rfl⟩ := ip
    cases cur with
    | none =>
      exact ⟨_, rfl, ⟨by simpa [pending, Con.doneCurrent] using o, fun _ => rfl, by simp, fun _ => ld, by simp, by simp, ex, by simp, by simp, by simp [Con.doneCurrent], by simp⟩, rfl⟩
    | some r =>
      exact ⟨_, rfl, ⟨by simpa [pending] using o, fun _ => rfl, by simp, fun _ => ld, by simp, by simp, ex, by simp, by simp, by simp, by simp⟩, rfl⟩

theorem given_cons (o : Op) (t : List Op) : given (o :: t) = given [o] ++ given t := by
  cases o <;> rfl

theorem Inv.step {g : List Query} {c : Con} (h : Inv g c) (o : Op) (hs : ∀ q, o = .start q → c.gone = false) :
    ∃ c', c.step o = some c' ∧ Inv (g ++ given [o]) c' ∧ (c'.gone = true → c.gone = true ∨ o = .destroy) := by
  by_cases hgone : c.gone = true
  · refine ⟨c, ?_, ?_, fun hh => .inl hh⟩
    · cases o with
      | start q => rw [hs q rfl] at hgone; exact absurd hgone (by decide)
      | event => simp [Con.step, hgone]
      | iter l => simp [Con.step, hgone]
      | close => simp [Con.step, hgone]
      | syncClose => simp [Con.step, hgone]
      | check ok => simp [Con.step, hgone]
      | destroy => simp [Con.step, hgone]
    · cases o with
      | start q => rw [hs q rfl] at hgone; exact absurd hgone (by decide)
      | _ => simpa [given] using h
  · have hg : c.gone = false := by simpa using hgone
    cases o with
    | start q =>
      simp only [Con.step]
      rw [if_neg (by simp [hg])]
      obtain ⟨o, ip, ni, ld, se, qu, ex, co, co2, en, r2⟩ := h
      refine ⟨_, rfl, ⟨?_, ip, ni, ld, se, qu, ex, co, ?_, ?_, ?_⟩, ?_⟩
      · simp only [pending, given] at o ⊢
        rw [← o]; simp
      · intro hst
        have hst' : c.st = .connectDone := hst
        rcases co2 hst' with ⟨a, b⟩ | ⟨a, b⟩
        · exact .inl ⟨by simp [a], b⟩
        · exact .inr ⟨by simp [a, hst'], b⟩
      · intro hh
        have hh' : c.gone = true := hh
        rw [hg] at hh'; exact absurd hh' (by decide)
      · intro hst
        have hst' : c.st = .selectDone := hst
        simp [r2 hst']
      · intro hh; exact .inl hh
    | event =>
      simp only [Con.step]
      by_cases hc : c.gone = true ∨ c.running = true ∨ c.fdev = false
      · rw [if_pos hc]
        exact ⟨c, rfl, by simpa [given] using h, fun hh => .inl hh⟩
      · rw [if_neg hc]
        have hf : c.fdev = true := by
          cases hx : c.fdev
          · exact absurd (.inr (.inr hx)) hc
          · rfl
        obtain ⟨o, ip, ni, ld, se, qu, ex, co, co2, en, r2⟩ := h
        refine ⟨_, rfl, ⟨by simpa [given, pending] using o, ip, ni, ld, se, qu, ex, co, ?_, ?_, fun _ => rfl⟩, fun hh => .inl hh⟩
        · intro hst
          rcases co2 hst with ⟨a, b⟩ | ⟨a, b⟩
          · exact .inl ⟨rfl, b⟩
          · rw [hf] at b; exact absurd b (by decide)
        · intro hh
          have hh' : c.gone = true := hh
          rw [hg] at hh'; exact absurd hh' (by decide)
    | iter l =>
      simp only [Con.step]
      by_cases hc : c.gone = true ∨ c.running = false
      · rw [if_pos hc]
        exact ⟨c, rfl, by simpa [given] using h, fun hh => .inl hh⟩
      · rw [if_neg hc]
        have hr : c.running = true := by
          cases hx : c.running
          · exact absurd (.inr hx) hc
          · rfl
        obtain ⟨c', e, i, gg⟩ := h.iter hr hg l
        refine ⟨c', e, by simpa [given] using i, ?_⟩
        intro hh; rw [gg] at hh; exact absurd hh (by decide)
    | close =>
      simp only [Con.step]
      by_cases hc : c.gone = true ∨ c.running = true
      · rw [if_pos hc]
        exact ⟨c, rfl, by simpa [given] using h, fun hh => .inl hh⟩
      · rw [if_neg hc]
        have hr : c.running = false := by
          cases hx : c.running
          · rfl
          · exact absurd (.inr hx) hc
        obtain ⟨o, ip, ni, ld, se, qu, ex, co, co2, en, r2⟩ := h
        refine ⟨_, rfl, ⟨by simpa [given, pending] using o, ip, ni, ld, se, qu, ex, co, ?_, ?_, ?_⟩, fun hh => .inl hh⟩
        · intro hst
          have hst' : c.st = .connectDone := hst
          rcases co2 hst with ⟨a, b⟩ | ⟨a, b⟩
          · rw [hr] at a; exact absurd a (by decide)
          · exact .inr ⟨by simp [hst'], b⟩
        · intro hh
          have hh' : c.gone = true := hh
          rw [hg] at hh'; exact absurd hh' (by decide)
        · intro hst
          have hst' : c.st = .selectDone := hst
          have := r2 hst'
          rw [hr] at this; exact absurd this (by decide)
    | syncClose =>
      simp only [Con.step]
      by_cases hc : c.gone = true ∨ c.running = true
      · rw [if_pos hc]
        exact ⟨c, rfl, by simpa [given] using h, fun hh => .inl hh⟩
      · rw [if_neg hc]
        obtain ⟨o, ip, ni, ld, se, qu, ex, co, co2, en, r2⟩ := h
        refine ⟨_, rfl, ⟨?_, fun _ => rfl, by simp, ?_, by simp, by simp, ex, by simp, by simp, ?_, by simp⟩, fun hh => .inl hh⟩
        · simp only [pending] at o
          rw [← o]
          simp [Con.cleanUp, Con.endAll, pending, given, Function.comp_def]
        · intro _ hl
          refine ld ?_ hl
          intro hst
          exact hc (.inr (r2 hst))
        · intro hh
          have hh' : c.gone = true := hh
          rw [hg] at hh'; exact absurd hh' (by decide)
    | check ok =>
      simp only [Con.step]
      rw [if_neg (by simp [hg])]
      obtain ⟨o, ip, ni, ld, se, qu, ex, co, co2, en, r2⟩ := h
      refine ⟨_, rfl, ⟨by simpa [given, pending] using o, ip, ni, ld, se, qu, ex, co, co2, en, r2⟩, ?_⟩
      intro hh; exact .inl hh
    | destroy =>
      simp only [Con.step]
      by_cases hc : c.gone = true ∨ c.running = true
      · rw [if_pos hc]
        exact ⟨c, rfl, by simpa [given] using h, fun hh => .inl hh⟩
      · rw [if_neg hc]
        have hr : c.running = false := by
          cases hx : c.running
          · rfl
          · exact absurd (.inr hx) hc
        obtain ⟨o, ip, ni, ld, se, qu, ex, co, co2, en, r2⟩ := h
        refine ⟨_, rfl, ⟨?_, by simp, ni, ld, by simp [Con.endAll], by simp [Con.endAll], ex, co, ?_, ?_, ?_⟩, by simp⟩
        · simp only [pending] at o
          rw [← o]
          simp [Con.endAll, pending, given, Function.comp_def]
        · intro _; exact .inr ⟨hr, rfl⟩
        · intro _; exact ⟨hr, rfl, by simp [pending, Con.endAll]⟩
        · intro hst
          have hst' : c.st = .selectDone := hst
          have := r2 hst'
          rw [hr] at this; exact absurd this (by decide)

/-- No query is given to a connection after its destruction has been asked for. -/
def NoneLate (ops : List Op) : Prop := ∀ a b q, ops = a ++ .destroy :: b → .start q ∉ b

theorem Inv.run {ops : List Op} : ∀ {g : List Query} {c : Con}, Inv g c → NoneLate ops → (c.gone = true → ∀ q, Op.start q ∉ ops) →
    ∃ c', c.run ops = some c' ∧ Inv (g ++ given ops) c' := by
  induction ops with
  | nil => intro g c h _ _; exact ⟨c, rfl, by simpa [given] using h⟩
  | cons o t ih =>
    intro g c h hl hgo
    obtain ⟨c1, e1, i1, g1⟩ := h.step o (by
      rintro q rfl
      cases hx : c.gone
      · rfl
      · exact absurd (List.mem_cons_self) (hgo hx q))
    obtain ⟨c', e', i'⟩ := ih i1 (fun a b q hab => hl (o :: a) b q (by rw [hab]; rfl)) (by
      intro hh q hq
      rcases g1 hh with hx | rfl
      · exact hgo hx q (List.mem_cons_of_mem _ hq)
      · exact hl [] t q rfl hq)
    refine ⟨c', by simp only [Con.run, e1, Option.bind_some]; exact e', ?_⟩
    rw [given_cons, ← List.append_assoc]; exact i'

/-- A connection as the library's users get it: connected by `SyncConnect`, or being connected by `Connect`. -/
inductive Fresh (err : Int) (db : Str) : Con → Prop where
  | sync : Fresh err db (Con.connected err db)
  | async : Fresh err db (Con.connecting err db)

theorem Fresh.inv {err : Int} {db : Str} {c : Con} (h : Fresh err db c) : Inv [] c ∧ c.gone = false := by
  cases h
  · refine ⟨⟨rfl, fun _ => rfl, ?_, ?_, ?_, ?_, ?_, ?_, ?_, ?_, ?_⟩, rfl⟩ <;> simp [Con.connected]
  · refine ⟨⟨rfl, fun _ => rfl, ?_, ?_, ?_, ?_, ?_, ?_, ?_, ?_, ?_⟩, rfl⟩ <;> simp [Con.connecting]

/-- **C192 (once, in order).**  Whatever the library answers and whenever events come, no check fails; the sessions whose callbacks have
been called are, in this order and each once, the first of those given; the others are still held by the connection. -/
theorem c192_once_in_order {err : Int} {db : Str} {c0 : Con} (h0 : Fresh err db c0) (ops : List Op) (hl : NoneLate ops) :
    ∃ c, c0.run ops = some c ∧ c.done.map Prod.fst ++ pending c = given ops := by
  obtain ⟨i, g⟩ := h0.inv
  obtain ⟨c, e, i'⟩ := i.run hl (by rw [g]; simp)
  exact ⟨c, e, by simpa using i'.order⟩

/-- **C192 (databases).**  A query that names a database is given to the server with that database selected. -/
theorem c192_database {err : Int} {db : Str} {c0 c : Con} (h0 : Fresh err db c0) {ops : List Op} (hl : NoneLate ops)
    (hrun : c0.run ops = some c) : ∀ x ∈ c.executed, x.1.db ≠ [] → x.2 = x.1.db := by
  obtain ⟨i, g⟩ := h0.inv
  obtain ⟨c', e, i'⟩ := i.run hl (by rw [g]; simp)
  rw [hrun, Option.some.injEq] at e
  subst e
  exact i'.exec

/-- **C192 (nobody is forgotten).**  Destroying a connection, or closing it with `SyncClose`, calls the callback of every session given
before. -/
theorem c192_ended {err : Int} {db : Str} {c0 c : Con} (h0 : Fresh err db c0) {ops : List Op} (hl : NoneLate ops)
    (hrun : c0.run ops = some c) (hr : c.running = false) (hg : c.gone = false) :
    (∃ c', c.step .destroy = some c' ∧ c'.done.map Prod.fst = given ops) ∧
    (∃ c', c.step .syncClose = some c' ∧ c'.done.map Prod.fst = given ops) := by
  obtain ⟨i, g⟩ := h0.inv
  obtain ⟨c', e, i'⟩ := i.run hl (by rw [g]; simp)
  rw [hrun, Option.some.injEq] at e
  subst e
  have ho := i'.order
  simp only [pending, List.nil_append] at ho
  have hc : ¬ (c.gone = true ∨ c.running = true) := by simp [hr, hg]
  constructor
  · refine ⟨_, by simp only [Con.step]; rw [if_neg hc], ?_⟩
    simp only [Con.endAll, List.map_append, List.map_map]
    rw [← ho]
    simp [Function.comp_def]
  · refine ⟨_, by simp only [Con.step]; rw [if_neg hc], ?_⟩
    simp only [Con.cleanUp, Con.endAll, List.map_append, List.map_map]
    rw [← ho]
    simp [Function.comp_def]

/-! ### Conversations with the server -/

/-- The library asks to wait; queries may be given meanwhile; the event comes. -/
def gap (qs : List Query) : List Op := .iter { wait := true } :: (qs.map .start ++ [.event])

/-- A call that is continued as often as `ws` is long and then answers `l`. -/
def call (ws : List (List Query)) (l : Lib) : List Op := ws.flatMap gap ++ [.iter l]

theorem run_append {a b : List Op} {c c' : Con} (h : c.run a = some c') : c.run (a ++ b) = c'.run b := by
  induction a generalizing c with
  | nil => simp only [Con.run, Option.some.injEq] at h; rw [h]; rfl
  | cons o t ih =>
    simp only [Con.run, List.cons_append] at h ⊢
    cases hs : c.step o with
    | none => rw [hs] at h; simp at h
    | some c1 => rw [hs] at h; exact ih h

theorem run_starts (qs : List Query) : ∀ {c : Con}, c.st ≠ .idle → c.gone = false →
    c.run (qs.map .start) = some { c with queue := c.queue ++ qs } := by
  induction qs with
  | nil => intro c _ _; simp [Con.run]
  | cons q t ih =>
    intro c h1 h2
    have : c.step (.start q) = some { c with queue := c.queue ++ [q] } := by
      simp only [Con.step]
      rw [if_neg (by simp [h2])]
      simp [h1]
    simp only [List.map_cons, Con.run, this, Option.bind_some]
    rw [ih (c := { c with queue := c.queue ++ [q] }) h1 h2]
    simp

/-- A state in which a call can be continued. -/
structure Waits (c : Con) : Prop where
  st : c.st = .selectWait ∨ c.st = .queryWait ∨ c.st = .fetchWait
  inproc : c.inproc.isSome = true
  err : c.errNo_ = 0
  running : c.running = true
  gone : c.gone = false

theorem run_gap {c c1 : Con} (hr : c.running = true) (hg : c.gone = false) (h : c.iter { wait := true } = some c1)
    (h1 : c1.running = false) (h2 : c1.fdev = true) (h3 : c1.gone = false) (h4 : c1.st ≠ .idle) (qs : List Query) :
    c.run (gap qs) = some { c1 with queue := c1.queue ++ qs, running := true } := by
  have hs : c.step (.iter { wait := true }) = some c1 := by simp [Con.step, hg, hr, h]
  simp only [gap, Con.run, hs, Option.bind_some]
  rw [run_append (run_starts qs h4 h3)]
  simp [Con.run, Con.step, h1, h2, h3]

theorem Waits.iter {c : Con} (h : Waits c) : c.iter { wait := true } = some { c with running := false, fdev := true } := by
  obtain ⟨st, ip, er, ru, go⟩ := h
  obtain ⟨⟨q, rows⟩, hq⟩ := Option.isSome_iff_exists.1 ip
  rcases st with st | st | st <;> simp [Con.iter, st, hq, er, Con.next]

theorem Waits.gaps {ws : List (List Query)} : ∀ {c : Con}, Waits c →
    ∃ fd, c.run (ws.flatMap gap) = some { c with queue := c.queue ++ ws.flatten, fdev := fd } := by
  induction ws with
  | nil => intro c _; exact ⟨c.fdev, by simp [Con.run]⟩
  | cons w t ih =>
    intro c h
    have hst : c.st ≠ .idle := by rcases h.st with e | e | e <;> simp [e]
    have hgap := run_gap h.running h.gone h.iter rfl rfl h.gone hst w
    simp only [List.flatMap_cons]
    rw [run_append hgap]
    obtain ⟨fd, e⟩ := ih (c := { c with queue := c.queue ++ w, running := true, fdev := true })
      ⟨h.st, h.inproc, h.err, rfl, h.gone⟩
    refine ⟨fd, ?_⟩
    simp only at e ⊢
    rw [e]
    simp [h.running]

/-- A state in which a call is begun; `w` is the state it waits in and `ex` the log of executed queries after it was begun. -/
structure Begins (c : Con) (w : S) (ex : List (Query × Str)) : Prop where
  wait : w = .selectWait ∨ w = .queryWait ∨ w = .fetchWait
  first : c.iter { wait := true } = some { c with st := w, running := false, fdev := true, executed := ex }
  inproc : c.inproc.isSome = true
  err : c.errNo_ = 0
  running : c.running = true
  gone : c.gone = false

theorem run_one {c : Con} (hr : c.running = true) (hg : c.gone = false) (l : Lib) : c.run [.iter l] = c.iter l := by
  simp only [Con.run, Con.step]
  rw [if_neg (by simp [hr, hg])]
  cases c.iter l <;> rfl

/-- A call, however often it is continued: as if answered at once in the state it begins in, or in the state it waits in. -/
theorem Begins.call {c : Con} {w : S} {ex : List (Query × Str)} (h : Begins c w ex) (ws : List (List Query)) (l : Lib) :
    (ws = [] ∧ c.run (call ws l) = c.iter l) ∨
    ∃ fd, c.run (call ws l) = ({ c with st := w, executed := ex, queue := c.queue ++ ws.flatten, fdev := fd } : Con).iter l := by
  cases ws with
  | nil => exact .inl ⟨rfl, run_one h.running h.gone l⟩
  | cons q t =>
    right
    have hw : w ≠ .idle := by rcases h.wait with e | e | e <;> simp [e]
    have hgap := run_gap h.running h.gone h.first rfl rfl h.gone hw q
    obtain ⟨fd, e⟩ := Waits.gaps (ws := t) (c := { c with st := w, fdev := true, executed := ex, queue := c.queue ++ q, running := true })
      ⟨h.wait, h.inproc, h.err, rfl, h.gone⟩
    refine ⟨fd, ?_⟩
    rw [Mysql.call, List.flatMap_cons, List.append_assoc, run_append hgap]
    simp only at e ⊢
    rw [run_append e, run_one (l := l)]
    rotate_left
    · rfl
    · exact h.gone
    simp [h.running]

/-- Between the queries of a connection that works: the next query is `q`. -/
structure AtIdle (c : Con) (q : Query) (t : List Query) : Prop where
  st : c.st = .idle
  queue : c.queue = q :: t
  inproc : c.inproc = none
  err : c.errNo_ = 0
  running : c.running = true
  gone : c.gone = false

/-- The part of a conversation that selects the query's database: nothing if that is selected already, or none is asked for. -/
def selecting (c : Con) (q : Query) (ws : List (List Query)) (x : Lib) : List Op :=
  if q.db ≠ [] ∧ q.db ≠ c.lastDb then call ws {} ++ [.iter x] else []

/-- The rows of a result, each after any number of waits. -/
def rowsTalk (rs : List (List (List Query) × Row)) (x : Lib) : List Op :=
  rs.flatMap (fun r => call r.1 { row := r.2 } ++ [.iter x])

/-- What a step of a conversation leaves as it is. -/
structure Same (c c' : Con) : Prop where
  err : c'.errNo_ = c.errNo_
  done : c'.done = c.done
  running : c'.running = true
  gone : c'.gone = false
  sched : c'.sched = c.sched

theorem take_query {c : Con} {q : Query} {t : List Query} (h : AtIdle c q t) (hsql : q.sql ≠ []) (ws : List (List Query)) (x y : Lib)
    (hld : c.lastDb ≠ [] → c.selected = c.lastDb) :
    ∃ c', c.run (.iter y :: selecting c q ws x) = some c' ∧ c'.st = .queryStart ∧ c'.inproc = some (q, []) ∧
      c'.queue = t ++ (if q.db ≠ [] ∧ q.db ≠ c.lastDb then ws.flatten else []) ∧ c'.executed = c.executed ∧
      c'.selected = (if q.db = [] then c.selected else q.db) ∧
      c'.lastDb = (if q.db = [] then c.lastDb else q.db) ∧ Same c c' := by
  have h1 : c.iter y = some { c with inproc := some (q, []), queue := t, st := if q.db ≠ [] ∧ q.db ≠ c.lastDb then .selectStart else .queryStart } := by
    simp only [Con.iter, h.st, h.queue, h.inproc, Option.isSome_none, Bool.false_eq_true, if_false]
    split <;> rfl
  have h1' := (run_one h.running h.gone y).trans h1
  unfold selecting
  by_cases hq : q.db ≠ [] ∧ q.db ≠ c.lastDb
  · simp only [if_pos hq] at h1' ⊢
    rw [← List.singleton_append, run_append h1']
    have hb : Begins { c with inproc := some (q, []), queue := t, st := .selectStart } .selectWait c.executed :=
      ⟨.inl rfl, by simp [Con.iter, Con.next], rfl, h.err, h.running, h.gone⟩
    have key : ∃ fd, ({ c with inproc := some (q, []), queue := t, st := .selectStart } : Con).run (call ws {}) =
        some { c with inproc := some (q, []), queue := t ++ ws.flatten, st := .selectDone, selected := q.db, fdev := fd } := by
      rcases hb.call ws {} with ⟨rfl, e⟩ | ⟨fd, e⟩
      · exact ⟨c.fdev, by rw [e]; simp [Con.iter, Con.next]⟩
      · exact ⟨fd, by rw [e]; simp [Con.iter, Con.next]⟩
    obtain ⟨fd, e⟩ := key
    rw [run_append e, run_one]
    rotate_left
    · exact h.running
    · exact h.gone
    simp only [Con.iter, if_neg hsql]
    exact ⟨_, rfl, rfl, rfl, rfl, rfl, by rw [if_neg hq.1], by rw [if_neg hq.1], ⟨rfl, rfl, h.running, h.gone, rfl⟩⟩
  · simp only [if_neg hq] at h1' ⊢
    refine ⟨_, h1', rfl, rfl, by simp, rfl, ?_, ?_, ⟨rfl, rfl, h.running, h.gone, rfl⟩⟩
    · by_cases hd : q.db = []
      · rw [if_pos hd]
      · rw [if_neg hd]
        have : q.db = c.lastDb := by
          by_contra hc
          exact hq ⟨hd, hc⟩
        rw [this] at hd ⊢
        exact hld hd
    · by_cases hd : q.db = []
      · rw [if_pos hd]
      · rw [if_neg hd]
        by_contra hc
        exact hq ⟨hd, fun hh => hc hh.symm⟩

theorem ask_query {c : Con} {q : Query} (hst : c.st = .queryStart) (hin : c.inproc = some (q, [])) (hsql : q.sql ≠ []) (herr : c.errNo_ = 0)
    (hr : c.running = true) (hg : c.gone = false) (ws : List (List Query)) :
    ∃ fd, c.run (call ws {}) =
      some { c with st := .resultReady, executed := c.executed ++ [(q, c.selected)], queue := c.queue ++ ws.flatten, fdev := fd } := by
  have hb : Begins c .queryWait (c.executed ++ [(q, c.selected)]) :=
    ⟨.inr (.inl rfl), by simp [Con.iter, hst, hin, hsql, Con.next], by rw [hin]; rfl, herr, hr, hg⟩
  rcases hb.call ws {} with ⟨rfl, e⟩ | ⟨fd, e⟩
  · exact ⟨c.fdev, by rw [e]; simp [Con.iter, hst, hin, hsql, Con.next]⟩
  · exact ⟨fd, by rw [e]; simp [Con.iter, hin, herr, Con.next]⟩

theorem fetch_begins {c : Con} (hst : c.st = .fetchStart) (hin : c.inproc.isSome = true) (herr : c.errNo_ = 0)
    (hr : c.running = true) (hg : c.gone = false) : Begins c .fetchWait c.executed :=
  ⟨.inr (.inr rfl), by simp [Con.iter, hst, Con.next], hin, herr, hr, hg⟩

theorem fetch_call {c : Con} (hst : c.st = .fetchStart) (hin : c.inproc.isSome = true) (herr : c.errNo_ = 0)
    (hr : c.running = true) (hg : c.gone = false) (ws : List (List Query)) (l : Lib) (hl : l.wait = false) :
    ∃ fd, c.run (call ws l) =
      some { c with st := .fetchReady, cur := if l.has then some l.row else none, queue := c.queue ++ ws.flatten, fdev := fd } := by
  rcases (fetch_begins hst hin herr hr hg).call ws l with ⟨rfl, e⟩ | ⟨fd, e⟩
  · exact ⟨c.fdev, by rw [e]; simp [Con.iter, hst, Con.next, hl]⟩
  · exact ⟨fd, by rw [e]; simp [Con.iter, Con.next, hl]⟩

theorem fetch_rows (x : Lib) (q : Query) (rs : List (List (List Query) × Row)) : ∀ {c : Con} {rows : List (List Str)},
    c.st = .fetchStart → c.inproc = some (q, rows) → c.errNo_ = 0 → c.running = true → c.gone = false →
    ∃ fd cur, c.run (rowsTalk rs x) =
      some { c with inproc := some (q, rows ++ rs.map (fun r => r.2.map cell)), cur := cur,
                    queue := c.queue ++ rs.flatMap (fun r => r.1.flatten), fdev := fd } := by
  induction rs with
  | nil =>
    intro c rows h1 h2 h3 h4 h5
    refine ⟨c.fdev, c.cur, ?_⟩
    simp [rowsTalk, Con.run, ← h2]
  | cons r t ih =>
    intro c rows h1 h2 h3 h4 h5
    obtain ⟨fd, e⟩ := fetch_call h1 (by rw [h2]; rfl) h3 h4 h5 r.1 { row := r.2 } rfl
    have e2 : c.run (call r.1 { row := r.2 } ++ [.iter x]) =
        some { c with inproc := some (q, rows ++ [r.2.map cell]), cur := some r.2, queue := c.queue ++ r.1.flatten, fdev := fd } := by
      rw [run_append e, run_one]
      rotate_left
      · exact h4
      · exact h5
      simp [Con.iter, h2, h1]
    obtain ⟨fd', cur', e3⟩ := ih (c := { c with inproc := some (q, rows ++ [r.2.map cell]), cur := some r.2, queue := c.queue ++ r.1.flatten, fdev := fd })
      h1 rfl h3 h4 h5
    refine ⟨fd', cur', ?_⟩
    rw [rowsTalk, List.flatMap_cons, run_append e2]
    rw [rowsTalk] at e3
    rw [e3]
    simp

/-- **C192 (results).**  A query whose turn it is and whose conversation with the server goes well - its database selected if need be, the
query accepted, a result with the rows `rs`, its end - is answered with code 0 (`mysql_errno` at the end: not 0 if the rest of the rows
was lost) and exactly these rows, however often the library has to
wait at each call and whatever queries are given meanwhile; it was executed on the database it names, or else on the one selected; then
it is the next query's turn. -/
theorem c192_rows {c : Con} {q : Query} {t : List Query} (h : AtIdle c q t) (hsql : q.sql ≠ []) (hld : c.lastDb ≠ [] → c.selected = c.lastDb)
    (ws0 ws1 ws2 : List (List Query)) (rs : List (List (List Query) × Row)) (x y z u : Lib) (hz : z.has = true) :
    ∃ c', c.run ((.iter y :: selecting c q ws0 x) ++ call ws1 {} ++ [.iter z] ++ rowsTalk rs x ++ call ws2 { has := false } ++ [.iter u]) =
        some c' ∧
      c'.done = c.done ++ [(q, ⟨u.errno, rs.map (fun r => r.2.map cell)⟩)] ∧
      c'.executed = c.executed ++ [(q, if q.db = [] then c.selected else q.db)] ∧
      c'.queue = t ++ (if q.db ≠ [] ∧ q.db ≠ c.lastDb then ws0.flatten else []) ++ ws1.flatten ++ rs.flatMap (fun r => r.1.flatten) ++ ws2.flatten ∧
      c'.st = .idle ∧ c'.inproc = none ∧ c'.running = true ∧ c'.gone = false ∧ c'.errNo_ = 0 ∧
      (c'.lastDb ≠ [] → c'.selected = c'.lastDb) := by
  obtain ⟨c1, e1, s1, i1, q1, x1, d1, l1, m1⟩ := take_query h hsql ws0 x y hld
  obtain ⟨fd2, e2⟩ := ask_query s1 i1 hsql (m1.err.trans h.err) m1.running m1.gone ws1
  have hl : c1.lastDb ≠ [] → c1.selected = c1.lastDb := by
    rw [d1, l1]
    by_cases hd : q.db = []
    · simpa only [if_pos hd] using hld
    · simp only [if_neg hd]; exact fun _ => trivial
  have e3 : c1.run (call ws1 {} ++ [.iter z]) =
      some { c1 with st := .fetchStart, executed := c1.executed ++ [(q, c1.selected)], queue := c1.queue ++ ws1.flatten, fdev := fd2 } := by
    rw [run_append e2, run_one]
    rotate_left
    · exact m1.running
    · exact m1.gone
    simp [Con.iter, i1, hz]
  obtain ⟨fd4, cur4, e4⟩ := fetch_rows x q rs
    (c := { c1 with st := .fetchStart, executed := c1.executed ++ [(q, c1.selected)], queue := c1.queue ++ ws1.flatten, fdev := fd2 })
    (rows := []) rfl i1 (m1.err.trans h.err) m1.running m1.gone
  obtain ⟨fd5, e5⟩ := fetch_call
    (c := { c1 with st := .fetchStart, executed := c1.executed ++ [(q, c1.selected)],
                    queue := c1.queue ++ ws1.flatten ++ rs.flatMap (fun r => r.1.flatten), fdev := fd4,
                    inproc := some (q, [] ++ rs.map (fun r => r.2.map cell)), cur := cur4 })
    rfl rfl (m1.err.trans h.err) m1.running m1.gone ws2 { has := false } rfl
  rw [List.append_assoc, List.append_assoc, List.append_assoc, List.append_assoc, run_append e1, ← List.append_assoc, run_append e3,
    run_append e4, run_append e5, run_one]
  rotate_left
  · exact m1.running
  · exact m1.gone
  refine ⟨_, rfl, ?_, ?_, ?_, rfl, rfl, m1.running, m1.gone, m1.err.trans h.err, hl⟩
  · simp [Con.doneCurrent, m1.done]
  · simp [Con.doneCurrent, x1, d1]
  · simp [Con.doneCurrent, q1]

/-- **C192 (no rows, errors).**  A query that yields no result - a statement, or one the server refuses with the code `e` - is answered
with this code and no rows; unless the code means that the connection is lost it is the next query's turn. -/
theorem c192_no_rows {c : Con} {q : Query} {t : List Query} (h : AtIdle c q t) (hsql : q.sql ≠ []) (hld : c.lastDb ≠ [] → c.selected = c.lastDb)
    (ws0 ws1 : List (List Query)) (x y z : Lib) (hz : z.has = false) :
    ∃ c', c.run ((.iter y :: selecting c q ws0 x) ++ call ws1 {} ++ [.iter z]) = some c' ∧
      c'.done = c.done ++ [(q, ⟨z.errno, []⟩)] ∧ c'.inproc = none ∧ c'.st = (if isFatal z.errno then .closeStart else .idle) ∧
      c'.queue = t ++ (if q.db ≠ [] ∧ q.db ≠ c.lastDb then ws0.flatten else []) ++ ws1.flatten ∧ c'.running = true := by
  obtain ⟨c1, e1, s1, i1, q1, x1, d1, l1, m1⟩ := take_query h hsql ws0 x y hld
  obtain ⟨fd2, e2⟩ := ask_query s1 i1 hsql (m1.err.trans h.err) m1.running m1.gone ws1
  rw [List.append_assoc, run_append e1, run_append e2, run_one]
  rotate_left
  · exact m1.running
  · exact m1.gone
  refine ⟨((({ c1 with st := .resultReady, executed := c1.executed ++ [(q, c1.selected)], queue := c1.queue ++ ws1.flatten, fdev := fd2 } : Con).doneCurrent z.errno).after z.errno), ?_, ?_, ?_, ?_, ?_, ?_⟩
  · simp [Con.iter, i1, hz]
  · simp [Con.doneCurrent, Con.after, i1, m1.done]
  · simp [Con.doneCurrent, Con.after, i1]
  · simp [Con.doneCurrent, Con.after, i1]
  · simp [Con.doneCurrent, Con.after, i1, q1]
  · simp [Con.doneCurrent, Con.after, i1, m1.running]

end Ltio.Mysql
