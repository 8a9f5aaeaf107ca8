/-
The asynchronous mysql connection (integration/async_mysql): `MysqlAsyncConnect` as the state machine it is, driven by the
non-blocking client library and the loop; `QuerySession`; the choice of a connection in `MysqlAsyncClientImpl`.

The library is taken by its contract: a `_start`/`_cont` call either asks to be continued when the socket is ready (non-zero status; the
returned value is then not written) or is finished and has written its value.  One iteration of the `while` loop of `HandleState` is one
step here (`iter`), with the library's answer to the call made in it; between iterations only callbacks of the application run, which
can call `StartQuery`.

Simplifications: a session is submitted once; column headers, affected-row counts, messages and the timer are left out (a time-out is an
event, and events are not only those asked for); `do_connection_check`'s ping does not disturb a call in progress; a reconnect with the same object is left out.  The directory is not part of the default build.
-/
namespace Ltio.Mysql

abbrev Str := List Char

/-- `QuerySession` as submitted (query_session.h:22-70). -/
structure Query where
  id : Nat
  db : Str
  sql : Str
deriving DecidableEq, Repr

/-- A row as the library gives it: `none` is SQL NULL. -/
abbrev Row := List (Option Str)

/-- What a session holds when its callback is called: `Code()` and `Result()`. -/
structure Res where
  code : Int
  rows : List (List Str)
deriving DecidableEq, Repr

/-- `MysqlAsyncConnect::State` (mysql_async_con.h:28-52). -/
inductive S where
  | connectInit | connectStart | connectWait | connectDone
  | idle
  | selectStart | selectWait | selectDone
  | queryStart | queryWait | resultReady
  | fetchStart | fetchWait | fetchReady
  | closeStart | closeWait | closeDone
deriving DecidableEq, Repr

/-- The library's answer to the call of one iteration; each call uses the fields it has. -/
structure Lib where
  /-- non-zero status: to be continued -/
  wait : Bool := false
  /-- the `int` a finished call returned -/
  ret : Int := 0
  /-- `mysql_errno` afterwards -/
  errno : Int := 0
  /-- the pointer returned (connection, result, row) is not NULL -/
  has : Bool := true
  row : Row := []
deriving DecidableEq, Repr

/-- A `MysqlAsyncConnect` (mysql_async_con.h:110-132). -/
structure Con where
  st : S
  /-- `err_no_`, which nothing initialises or writes -/
  errNo_ : Int
  /-- `option_.dbname` -/
  dbname : Str
  mysqlRet : Bool
  /-- `result_row_` -/
  cur : Option Row
  lastDb : Str
  /-- `in_process_` and the rows it has collected -/
  inproc : Option (Query × List (List Str))
  queue : List Query
  ready : Bool
  sched : Bool
  /-- `fd_event_` exists: events can come -/
  fdev : Bool
  /-- inside `HandleState` -/
  running : Bool
  /-- destroyed -/
  gone : Bool
  /-- callbacks called so far: the session and what it held -/
  done : List (Query × Res)
  /-- (ghost) database selected in the server's session -/
  selected : Str
  /-- (ghost) queries handed to the server, with the database selected then -/
  executed : List (Query × Str)
deriving DecidableEq, Repr

/-- A fatal error code: CR_SERVER_LOST, CR_UNKNOWN_ERROR, CR_OUT_OF_MEMORY, CR_SERVER_GONE_ERROR (mysql_async_con.cc:221-234). -/
def isFatal (code : Int) : Bool := code = 2013 || code = 2000 || code = 2008 || code = 2006

/-- `go_next_state` with `WaitMysqlStatus` (mysql_async_con.cc:70-88, 431-463). -/
def Con.next (c : Con) (wait : Bool) (waitSt nextSt : S) : Con :=
  if wait then { c with st := waitSt, running := false, fdev := true } else { c with st := nextSt }

/-- `DoneCurrentQuery` (mysql_async_con.cc:380-390): the code is left at 0 unless there was an error. -/
def Con.doneCurrent (c : Con) (code : Int) : Con :=
  match c.inproc with
  | none => c
  | some (q, rows) => { c with inproc := none, done := c.done ++ [(q, ⟨code, rows⟩)] }

/-- `… ? CLOSE_START : CONNECTION_IDLE`. -/
def Con.after (c : Con) (code : Int) : Con := { c with st := if isFatal code then .closeStart else .idle }

/-- Ending all queries as closed (mysql_async_con.cc:15-26, 515-525). -/
def Con.endAll (c : Con) : Con :=
  { c with
    inproc := none
    queue := []
    done := c.done ++ (c.inproc.toList.map (fun x => (x.1, ⟨-1, x.2⟩)) ++ c.queue.map (fun q => (q, ⟨-1, []⟩))) }

/-- `clean_up` (mysql_async_con.cc:505-526). -/
def Con.cleanUp (c : Con) : Con := { c.endAll with fdev := false }

/-- A cell of a row as it is stored (mysql_async_con.cc:346-354): `std::string` from a C string, or the text NULL. -/
def cell : Option Str → Str
  | none => "NULL".toList
  | some t => t.takeWhile (fun c => c.toNat ≠ 0)

/-- One iteration of the loop of `HandleState` (mysql_async_con.cc:236-364) with `HandleStateConnect` (135-193), `HandleStateIDLE`
(196-219) and `HandleStateSelectDB` (91-133).  `none` is a failed `CHECK`. -/
def Con.iter (c : Con) (l : Lib) : Option Con :=
  match c.st with
  | .connectStart | .connectWait =>
    some (({ c with mysqlRet := if l.wait then c.mysqlRet else l.has } : Con).next l.wait .connectWait .connectDone)
  | .connectDone =>
    if c.mysqlRet then some { c with ready := true, st := .idle, lastDb := c.dbname }
    else some { c with ready := false, st := .closeStart }
  | .closeStart | .closeWait => some (c.next l.wait .closeWait .closeDone)
  | .closeDone => some { c.cleanUp with ready := false, st := .connectDone, running := false }
  | .idle =>
    match c.queue with
    | [] => if c.sched then some { c with st := .closeStart } else some { c with running := false }
    | q :: t =>
      if c.inproc.isSome then none
      else if q.db ≠ [] ∧ q.db ≠ c.lastDb then some { c with inproc := some (q, []), queue := t, st := .selectStart }
      else some { c with inproc := some (q, []), queue := t, st := .queryStart }
  | .selectStart | .selectWait =>
    match c.inproc with
    | none => none
    | some (q, _) =>
      if l.wait = false ∧ l.ret ≠ 0 then some ((c.doneCurrent l.ret).after l.ret)
      else some (({ c with selected := if l.wait then c.selected else q.db } : Con).next l.wait .selectWait .selectDone)
  | .selectDone =>
    match c.inproc with
    | none => none
    | some (q, _) =>
      if q.sql = [] then some { ({ c with lastDb := q.db } : Con).doneCurrent 0 with st := .idle }
      else some { c with lastDb := q.db, st := .queryStart }
  | .queryStart =>
    match c.inproc with
    | none => none
    | some (q, _) =>
      if q.sql = [] then some { c.doneCurrent (-9999) with st := .idle }
      else if l.wait = false ∧ l.ret ≠ 0 then
        some ((({ c with executed := c.executed ++ [(q, c.selected)] } : Con).doneCurrent l.ret).after l.ret)
      else some (({ c with executed := c.executed ++ [(q, c.selected)] } : Con).next l.wait .queryWait .resultReady)
  | .queryWait =>
    if c.inproc.isNone then none
    else if c.errNo_ ≠ 0 then some ((c.doneCurrent (if l.wait then 0 else l.ret)).after (if l.wait then 0 else l.ret))
    else some (c.next l.wait .queryWait .resultReady)
  | .resultReady =>
    if c.inproc.isNone then none
    else if l.has then some { c with st := .fetchStart }
    else some ((c.doneCurrent l.errno).after l.errno)
  | .fetchStart | .fetchWait =>
    some (({ c with cur := if l.wait then c.cur else if l.has then some l.row else none } : Con).next l.wait .fetchWait .fetchReady)
  | .fetchReady =>
    match c.inproc with
    | none => none
    | some (q, rows) =>
      match c.cur with
      | none => some { c.doneCurrent l.errno with st := .idle }
      | some r => some { c with inproc := some (q, rows ++ [r.map cell]), st := .fetchStart }
  | .connectInit => none

/-- What happens to a connection. -/
inductive Op where
  /-- `StartQuery` -/
  | start (q : Query)
  /-- the descriptor is ready or the time is up: `OnWaitEventInvoked`, `OnTimeOut` -/
  | event
  /-- the next iteration inside `HandleState` -/
  | iter (l : Lib)
  /-- `Close` -/
  | close
  /-- `SyncClose` -/
  | syncClose
  /-- `do_connection_check`: whether the ping succeeded -/
  | check (ok : Bool)
  /-- the destructor -/
  | destroy
deriving DecidableEq, Repr

/-- One step; `none` is a failed `CHECK` or a use after destruction. -/
def Con.step (c : Con) : Op → Option Con
  -- mysql_async_con.cc:465-472
  | .start q =>
    if c.gone then none
    else some { c with queue := c.queue ++ [q], running := c.running || (decide (c.st = .idle) && c.inproc.isNone) }
  -- mysql_async_con.cc:392-429
  | .event => if c.gone ∨ c.running ∨ c.fdev = false then some c else some { c with running := true }
  | .iter l => if c.gone ∨ c.running = false then some c else c.iter l
  -- mysql_async_con.cc:550-557
  | .close =>
    if c.gone ∨ c.running then some c
    else some { c with sched := true, running := c.inproc.isNone && decide (c.st = .queryStart) }
  -- mysql_async_con.cc:559-567
  | .syncClose =>
    if c.gone ∨ c.running then some c
    else some { c.cleanUp with ready := false, st := .closeDone }
  -- mysql_async_con.cc:494-503
  | .check ok => if c.gone then some c else some { c with ready := ok, sched := c.sched || !ok }
  -- mysql_async_con.cc:15-39
  | .destroy => if c.gone ∨ c.running then some c else some { c.endAll with gone := true, fdev := false }

def Con.run (c : Con) : List Op → Option Con
  | [] => some c
  | o :: t => (c.step o).bind (fun c' => c'.run t)

/-- After `InitConnection` and a successful `SyncConnect` (mysql_async_con.cc:474-492, 534-548): as `InitWithOption` makes them. -/
def Con.connected (err : Int) (dbname : Str) : Con :=
  ⟨.idle, err, dbname, true, none, [], none, [], true, false, false, false, false, [], dbname, []⟩

/-- After `InitConnection` and `Connect` (mysql_async_con.cc:474-492, 528-532): the loop has begun `HandleState`. -/
def Con.connecting (err : Int) (dbname : Str) : Con :=
  ⟨.connectStart, err, dbname, false, none, [], none, [], false, false, false, true, false, [], dbname, []⟩

/-- The queries given to a connection in a history. -/
def given : List Op → List Query
  | [] => []
  | .start q :: t => q :: given t
  | _ :: t => given t

/-- `MysqlAsyncClientImpl::get_client` (mysql_client_impl.cc:44-56) on the connections' readiness: the connections are never NULL, so
the loop runs once.  The counter, an `int` nothing initialises (mysql_client_impl.h:34), is not wrapped here. -/
def getClient (useIndex : Nat) (ready : List Bool) : Nat × Option Nat :=
  (useIndex + 1, if ready[(useIndex + 1) % ready.length]? = some true then some ((useIndex + 1) % ready.length) else none)

end Ltio.Mysql
