import Verif.Mysql.Props
/-
C191: where the mysql connection does not do what its users expect; and an example for C192.
-/
namespace Ltio.Mysql

/-- **C191 violation.**  A query that names no database is not run on the connection's own one but on whichever the query before it
named. -/
theorem c191_default_db_violated (db d sql : Str) (hd : d ≠ []) (hne : d ≠ db) (hs : sql ≠ []) :
    ∃ ops c, (Con.connected 0 db).run ops = some c ∧ given ops = [⟨1, d, sql⟩, ⟨2, [], sql⟩] ∧
      c.executed = [(⟨1, d, sql⟩, d), (⟨2, [], sql⟩, d)] ∧ c.dbname = db ∧ d ≠ db := by
  obtain ⟨c, e, h⟩ := Option.map_eq_some_iff.1 (show ((Con.connected 0 db).run [.start ⟨1, d, sql⟩, .iter {}, .iter {}, .iter {}, .iter {},
      .iter { has := false }, .iter {}, .start ⟨2, [], sql⟩, .iter {}, .iter {}]).map (fun c => (c.executed, c.dbname)) =
      some ([(⟨1, d, sql⟩, d), (⟨2, [], sql⟩, d)], db) by
    simp [Con.connected, Con.run, Con.step, Con.iter, Con.next, Con.doneCurrent, Con.after, isFatal, hd, hs, hne])
  simp only [Prod.mk.injEq] at h
  exact ⟨_, c, e, rfl, h.1, h.2, hne⟩

/-- **C191 violation.**  `err_no_` is never initialised, and it is what is looked at when a query has had to wait: unless it happens to
be zero, the query is reported as successful, without rows, at the first event, before the server has answered. -/
theorem c191_uninitialised_violated (err : Int) (he : err ≠ 0) (db : Str) (q : Query) (hq : q.db = []) (hs : q.sql ≠ []) :
    ∃ c, (Con.connected err db).run [.start q, .iter {}, .iter { wait := true }, .event, .iter { wait := true }] = some c ∧
      c.done = [(q, ⟨0, []⟩)] ∧ c.st = .idle := by
  obtain ⟨c, e, h⟩ := Option.map_eq_some_iff.1 (show ((Con.connected err db).run [.start q, .iter {}, .iter { wait := true }, .event,
      .iter { wait := true }]).map (fun c => (c.done, c.st)) = some ([(q, ⟨0, []⟩)], .idle) by
    simp [Con.connected, Con.run, Con.step, Con.iter, Con.next, Con.doneCurrent, Con.after, isFatal, hq, hs, he])
  simp only [Prod.mk.injEq] at h
  exact ⟨c, e, h.1, h.2⟩

/-- **C191 violation.**  The library's calls return 1 for an error, not its code: a refusal found at once is reported as 1, the same
refusal found after a wait as its code `e`; and a lost connection found at once is not noticed: the connection goes on as ready. -/
theorem c191_code_violated (db : Str) (q : Query) (hq : q.db = []) (hs : q.sql ≠ []) (e : Int) (he : isFatal e = true) :
    (∃ c, (Con.connected 0 db).run [.start q, .iter {}, .iter { ret := 1, errno := e }] = some c ∧
      c.done = [(q, ⟨1, []⟩)] ∧ c.st = .idle ∧ c.ready = true) ∧
    (∃ c, (Con.connected 0 db).run [.start q, .iter {}, .iter { wait := true }, .event, .iter { ret := 1, errno := e },
        .iter { has := false, errno := e }] = some c ∧ c.done = [(q, ⟨e, []⟩)] ∧ c.st = .closeStart) := by
  constructor
  · obtain ⟨c, ec, h⟩ := Option.map_eq_some_iff.1 (show ((Con.connected 0 db).run [.start q, .iter {}, .iter { ret := 1, errno := e }]).map
        (fun c => (c.done, c.st, c.ready)) = some ([(q, ⟨1, []⟩)], .idle, true) by
      simp [Con.connected, Con.run, Con.step, Con.iter, Con.next, Con.doneCurrent, Con.after, isFatal, hq, hs])
    simp only [Prod.mk.injEq] at h
    exact ⟨c, ec, h.1, h.2.1, h.2.2⟩
  · obtain ⟨c, ec, h⟩ := Option.map_eq_some_iff.1 (show ((Con.connected 0 db).run [.start q, .iter {}, .iter { wait := true }, .event,
        .iter { ret := 1, errno := e }, .iter { has := false, errno := e }]).map (fun c => (c.done, c.st)) =
        some ([(q, ⟨e, []⟩)], .closeStart) by
      simp [Con.connected, Con.run, Con.step, Con.iter, Con.next, Con.doneCurrent, Con.after, hq, hs, he])
    simp only [Prod.mk.injEq] at h
    exact ⟨c, ec, h.1, h.2⟩

/-- Nothing but queries, events, closing and checks. -/
def Plain (o : Op) : Prop := o ≠ .syncClose ∧ o ≠ .destroy

theorem stuck {ops : List Op} : ∀ {c : Con}, c.st = .closeDone ∨ c.st = .connectDone → c.running = false → c.fdev = false → c.gone = false →
    (∀ o ∈ ops, Plain o) → ∃ c', c.run ops = some c' ∧ c'.done = c.done := by
  induction ops with
  | nil => intro c _ _ _ _ _; exact ⟨c, rfl, rfl⟩
  | cons o t ih =>
    intro c h1 h2 h3 h4 hp
    have hidle : c.st ≠ .idle := by rcases h1 with e | e <;> simp [e]
    have hqs : c.st ≠ .queryStart := by rcases h1 with e | e <;> simp [e]
    have ht : ∀ o ∈ t, Plain o := fun x hx => hp x (List.mem_cons_of_mem _ hx)
    have key : ∃ c1, c.step o = some c1 ∧ c1.st = c.st ∧ c1.running = false ∧ c1.fdev = false ∧ c1.gone = false ∧ c1.done = c.done := by
      cases o with
      | start q => exact ⟨{ c with queue := c.queue ++ [q] }, by simp [Con.step, h4, h2, hidle], rfl, h2, h3, h4, rfl⟩
      | event => exact ⟨c, by simp [Con.step, h3], rfl, h2, h3, h4, rfl⟩
      | iter l => exact ⟨c, by simp [Con.step, h2], rfl, h2, h3, h4, rfl⟩
      | close => exact ⟨{ c with sched := true }, by simp [Con.step, h4, h2, hqs], rfl, h2, h3, h4, rfl⟩
      | check ok => exact ⟨{ c with ready := ok, sched := c.sched || !ok }, by simp [Con.step, h4], rfl, h2, h3, h4, rfl⟩
      | syncClose => exact absurd rfl (hp _ List.mem_cons_self).1
      | destroy => exact absurd rfl (hp _ List.mem_cons_self).2
    obtain ⟨c1, e1, a1, a2, a3, a4, a5⟩ := key
    obtain ⟨c', e', a'⟩ := ih (c := c1) (by rw [a1]; exact h1) a2 a3 a4 ht
    exact ⟨c', by simp only [Con.run, e1, Option.bind_some]; exact e', a'.trans a5⟩

/-- **C191 violation.**  A query given to a connection after it was closed is never answered, whatever happens, until the connection is
destroyed or closed again. -/
theorem c191_after_close_violated (err : Int) (db : Str) (q : Query) (ops : List Op) (hp : ∀ o ∈ ops, Plain o) :
    ∃ c, (Con.connected err db).run (.syncClose :: .start q :: ops) = some c ∧ c.done = [] := by
  obtain ⟨c, e, h⟩ := stuck (ops := .start q :: ops)
    (c := { (Con.connected err db).cleanUp with ready := false, st := .closeDone }) (.inl rfl) rfl rfl rfl (by
      intro o ho
      rcases List.mem_cons.1 ho with rfl | ho
      · exact ⟨by simp, by simp⟩
      · exact hp o ho)
  exact ⟨c, e, h⟩

/-- The same after the connection was lost and has closed itself: it never connects again. -/
theorem c191_no_reconnect_violated (db : Str) (q q2 : Query) (hq : q.db = []) (hs : q.sql ≠ []) (ops : List Op) (hp : ∀ o ∈ ops, Plain o) :
    ∃ c, (Con.connected 0 db).run ([.start q, .iter {}, .iter {}, .iter { has := false, errno := 2013 }, .iter {}, .iter {}, .start q2] ++ ops) =
      some c ∧ c.done = [(q, ⟨2013, []⟩)] := by
  have h1 : (Con.connected 0 db).run [.start q, .iter {}, .iter {}, .iter { has := false, errno := 2013 }, .iter {}, .iter {}] =
      some ⟨.connectDone, 0, db, true, none, [], none, [], false, false, false, false, false, [(q, ⟨2013, []⟩)], db, [(q, db)]⟩ := by
    simp [Con.connected, Con.run, Con.step, Con.iter, Con.next, Con.doneCurrent, Con.after, Con.cleanUp, Con.endAll, isFatal, hq, hs]
  obtain ⟨c, e, h⟩ := stuck (ops := .start q2 :: ops)
    (c := ⟨.connectDone, 0, db, true, none, [], none, [], false, false, false, false, false, [(q, ⟨2013, []⟩)], db, [(q, db)]⟩)
    (.inr rfl) rfl rfl rfl (by
      intro o ho
      rcases List.mem_cons.1 ho with rfl | ho
      · exact ⟨by simp, by simp⟩
      · exact hp o ho)
  refine ⟨c, ?_, h⟩
  rw [← e, ← run_append h1]
  simp

/-- **C191 violation.**  `Close` on a connection that has nothing to do closes nothing: it stays connected until a query is given, which
is then still executed. -/
theorem c191_close_violated (err : Int) (db : Str) (ops : List Op) (hp : ∀ o ∈ ops, o = .event ∨ o = .close ∨ (∃ l, o = .iter l) ∨ ∃ b, o = .check b) :
    ∃ c, (Con.connected err db).run (.close :: ops) = some c ∧ c.st = .idle ∧ c.running = false := by
  have key : ∀ (ops : List Op) (c : Con), c.st = .idle → c.running = false → c.fdev = false → c.gone = false →
      (∀ o ∈ ops, o = .event ∨ o = .close ∨ (∃ l, o = .iter l) ∨ ∃ b, o = .check b) →
      ∃ c', c.run ops = some c' ∧ c'.st = .idle ∧ c'.running = false := by
    intro ops
    induction ops with
    | nil => intro c h1 h2 _ _ _; exact ⟨c, rfl, h1, h2⟩
    | cons o t ih =>
      intro c h1 h2 h3 h4 hp
      have ht : ∀ o ∈ t, o = .event ∨ o = .close ∨ (∃ l, o = .iter l) ∨ ∃ b, o = .check b := fun x hx => hp x (List.mem_cons_of_mem _ hx)
      rcases hp o List.mem_cons_self with rfl | rfl | ⟨l, rfl⟩ | ⟨b, rfl⟩
      · have : c.step .event = some c := by simp [Con.step, h3]
        simp only [Con.run, this, Option.bind_some]
        exact ih c h1 h2 h3 h4 ht
      · have : c.step .close = some { c with sched := true } := by simp [Con.step, h4, h2, h1]
        simp only [Con.run, this, Option.bind_some]
        exact ih _ h1 h2 h3 h4 ht
      · have : c.step (.iter l) = some c := by simp [Con.step, h2]
        simp only [Con.run, this, Option.bind_some]
        exact ih c h1 h2 h3 h4 ht
      · have : c.step (.check b) = some { c with ready := b, sched := c.sched || !b } := by simp [Con.step, h4]
        simp only [Con.run, this, Option.bind_some]
        exact ih _ h1 h2 h3 h4 ht
  exact key (.close :: ops) _ rfl rfl rfl rfl (by
    intro o ho
    rcases List.mem_cons.1 ho with rfl | ho
    · exact .inr (.inl rfl)
    · exact hp o ho)

/-- **C191 violation.**  A query given through the client fails at once if the connection whose turn it is is not ready, although
another one is. -/
theorem c191_not_ready_violated (i : Nat) (ready : List Bool) (h : ready[(i + 1) % ready.length]? = some false) :
    (getClient i ready).2 = none ∧ (getClient 1 [false, true]).2 = none := by
  refine ⟨?_, rfl⟩
  simp [getClient, h]

/-- **C191 violation.**  NULL is stored as the text NULL, and a text with a NUL character is cut off there. -/
theorem c191_cells_violated (a b : Str) (h : ∀ c ∈ a, c.toNat ≠ 0) :
    cell none = cell (some "NULL".toList) ∧ cell (some (a ++ Char.ofNat 0 :: b)) = cell (some a) := by
  constructor
  · decide
  · have ha : a.takeWhile (fun c => decide (c.toNat ≠ 0)) = a := by
      have := List.takeWhile_append_of_pos (p := fun c => decide (c.toNat ≠ 0)) (l₁ := a) (l₂ := []) (by simpa using h)
      simpa using this
    simp only [cell]
    rw [List.takeWhile_append_of_pos (by simpa using h), ha]
    rw [List.takeWhile_cons, if_neg (by decide)]
    simp

/-- **C191 violation.**  The client hands the loop a plain pointer: if it is destroyed before the loop runs the task, the task uses the
destroyed connection. -/
theorem c191_late_violated (err : Int) (db : Str) (q : Query) : (Con.connected err db).run [.destroy, .start q] = none := by
  simp [Con.connected, Con.run, Con.step, Con.endAll]

/-- **C192 (choice of a connection).**  While all connections are ready they are used in turn. -/
theorem c192_in_turn (i : Nat) (ready : List Bool) (hne : ready ≠ []) (h : ∀ b ∈ ready, b = true) :
    getClient i ready = (i + 1, some ((i + 1) % ready.length)) := by
  have hl : (i + 1) % ready.length < ready.length := Nat.mod_lt _ (List.length_pos_iff.2 hne)
  have : ready[(i + 1) % ready.length]? = some true := by
    rw [List.getElem?_eq_getElem hl]
    exact congrArg some (h _ (List.getElem_mem hl))
  simp [getClient, this]

/-- Three queries on one connection, with waits, a change of database, NULLs, one of them given while another is answered; then the
connection is destroyed with one query still waiting. -/
theorem w_c192 :
    let q1 : Query := ⟨1, "shop".toList, "select a, b".toList⟩
    let q2 : Query := ⟨2, "shop".toList, "delete x".toList⟩
    let q3 : Query := ⟨3, [], "select".toList⟩
    let q4 : Query := ⟨4, [], "late".toList⟩
    let ops : List Op := [.start q1] ++ (.iter {} :: call [[], [q2]] {} ++ [.iter {}]) ++ call [[]] {} ++ [.iter {}] ++
      rowsTalk [([], [some "1".toList, none]), ([[q3], []], [some "2".toList, some "x".toList])] {} ++ call [[]] { has := false } ++ [.iter {}] ++
      [.iter {}] ++ call [] {} ++ [.iter { has := false }] ++
      [.iter {}] ++ call [[]] {} ++ [.iter { has := false, errno := 1064 }] ++ [.iter {}, .start q4, .destroy, .iter {}, .iter { wait := true }, .destroy]
    ∃ c, (Con.connected 0 "app".toList).run ops = some c ∧ NoneLate ops ∧
      c.done = [(q1, ⟨0, [["1".toList, "NULL".toList], ["2".toList, "x".toList]]⟩), (q2, ⟨0, []⟩), (q3, ⟨1064, []⟩), (q4, ⟨-1, []⟩)] ∧
      c.executed = [(q1, "shop".toList), (q2, "shop".toList), (q3, "shop".toList), (q4, "shop".toList)] ∧ c.gone = true := by
  intro q1 q2 q3 q4 ops
  have h : ((Con.connected 0 "app".toList).run ops).map (fun c => (c.done, c.executed, c.gone)) = some
      ([(q1, ⟨0, [["1".toList, "NULL".toList], ["2".toList, "x".toList]]⟩), (q2, ⟨0, []⟩), (q3, ⟨1064, []⟩), (q4, ⟨-1, []⟩)],
       [(q1, "shop".toList), (q2, "shop".toList), (q3, "shop".toList), (q4, "shop".toList)], true) := by decide +kernel
  obtain ⟨c, e, hc⟩ := Option.map_eq_some_iff.1 h
  simp only [Prod.mk.injEq] at hc
  refine ⟨c, e, ?_, hc.1, hc.2.1, hc.2.2⟩
  intro a b q hab hq
  have hno : ∀ (l : List Op) (a b : List Op), l = a ++ .destroy :: b →
      b = (l.drop (a.length + 1)) ∧ l[a.length]? = some .destroy := by
    intro l a b hl; subst hl; simp
  obtain ⟨h1, h2⟩ := hno ops a b hab
  have hlen : a.length < ops.length := by rw [hab]; simp
  have hall : ∀ n < ops.length, ops[n]? = some .destroy → ∀ o ∈ ops.drop (n + 1), (match o with | .start _ => false | _ => true) = true := by
    decide +kernel
  rw [h1] at hq
  exact absurd (hall _ hlen h2 _ hq) (by simp)

end Ltio.Mysql
