import Verif.Net.TcpProps
/-
Both ends of a connection together: on each side a codec service (codec_service.cc `HandleEvent`) over a `TcpChannel`
(C24) over a socket, and a network between them that is reliable and in order but chooses when and in what pieces bytes arrive.
The codec is a parameter; raw, WebSocket and line codecs are put in by EndToEndCodecs.lean.

Simplifications: the write and the read of one poll event are separate steps (between them nothing of this side can run);
what a handler sends while it handles a message is a send after it (input and output buffers are independent); an end that
saw an error does nothing any more (it is closed, C40).
-/
namespace Ltio.Net.E2E
open Ltio.IOBuffer Ltio.Net

/-- `OnDataReceived` of a codec: from its state and the bytes in the input buffer, the new state, what it hands on and how many
bytes it consumes; `none` is undefined behaviour. -/
structure Codec (σ E : Type) where
  init : σ
  /-- messages are passed to `Send` (raw, line), or else written into the output buffer and flushed (WebSocket) -/
  direct : Bool
  proc : σ → List Byte → Option (σ × List E × Nat)

/-- One end. -/
structure End (σ E M : Type) where
  c : Chan
  st : σ
  /-- what the codec handed on -/
  got : List E
  /-- the messages whose sending was begun -/
  sent : List M
  /-- a read or write failed: closed -/
  broken : Bool
  /-- (ghost) the operations of the channel -/
  ops : List Op

/-- A connection: the two ends, and how many of the bytes each kernel accepted have reached the other. -/
structure Pair (σ E M : Type) where
  e : Bool → End σ E M
  net : Bool → Nat

variable {σ E M : Type}

def Pair.setE (p : Pair σ E M) (i : Bool) (x : End σ E M) : Pair σ E M :=
  { p with e := fun j => if j = i then x else p.e j }

/-- A new connection. -/
def Pair.init (k : Bool → Codec σ E) : Pair σ E M :=
  ⟨fun i => ⟨Chan.init, (k i).init, [], [], false, []⟩, fun _ => 0⟩

/-- Writing into the output buffer, then `TryFlushChannel` (ws_codec_service.cc:171-208, codec_service.cc:99-107). -/
def bufSend (c : Chan) (d : List Byte) (s : List WRes) : Option (Chan × Int) :=
  match c.out.write d with
  | none => none
  | some o => some (({ c with out := o } : Chan).handleWrite s)

/-- One piece of a message. -/
def sendOne (direct : Bool) (c : Chan) (d : List Byte) (s : List WRes) : Option (Chan × Int) :=
  if direct = true then Net.step c (.send d s) else bufSend c d s

/-- Sending a message: `Send` for each of its pieces until one fails (raw_message.cc:89-95, line_codec_service.cc:60-69). -/
def sendPieces (direct : Bool) : Chan → List Op → List (List Byte × List WRes) → Option (Chan × List Op × Bool)
  | c, ops, [] => some (c, ops, false)
  | c, ops, (d, s) :: t => (sendOne direct c d s).bind (fun x =>
    if x.2 < 0 then some (x.1, ops ++ [.send d s], true) else sendPieces direct x.1 (ops ++ [.send d s]) t)

/-- The codec on the input buffer, if that is not empty (codec_service.cc:134-136). -/
def End.receive (k : Codec σ E) (e : End σ E M) : Option (End σ E M) :=
  if e.c.inb.asString = [] then some e
  else match k.proc e.st e.c.inb.asString with
    | none => none
    | some (st, evs, n) => some
        { e with st := st, got := e.got ++ evs, ops := e.ops ++ [.appConsume n],
                 c := { e.c with inb := e.c.inb.consume n, taken := e.c.taken ++ e.c.inb.asString.take n } }

inductive POp (M : Type) where
  /-- end `i` sends a message; the kernel answers as the scripts say -/
  | send (i : Bool) (m : M) (s : List (List WRes))
  /-- a write event at end `i` -/
  | writable (i : Bool) (s : List WRes)
  /-- a read event at end `i` -/
  | readable (i : Bool) (s : List RRes)
  /-- the next `n` bytes of end `i` reach the other end's kernel -/
  | net (i : Bool) (n : Nat)
  /-- other code changes `errno` -/
  | clobber (i : Bool) (e : Errno)

/-- One step; `none` is undefined behaviour. -/
def Pair.step (k : Bool → Codec σ E) (pieces : M → List (List Byte)) (p : Pair σ E M) : POp M → Option (Pair σ E M)
  | .send i m s =>
    if (p.e i).broken = true then some p
    else match sendPieces (k i).direct (p.e i).c (p.e i).ops ((pieces m).zip (s ++ List.replicate (pieces m).length [])) with
      | none => none
      | some (c, ops, b) => some (p.setE i { (p.e i) with c := c, ops := ops, broken := b, sent := (p.e i).sent ++ [m] })
  | .writable i s =>
    if (p.e i).broken = true then some p
    else match Net.step (p.e i).c (.writable s) with
      | none => none
      | some (c, rv) => some (p.setE i { (p.e i) with c := c, ops := (p.e i).ops ++ [.writable s], broken := decide (rv < 0) })
  | .readable i s =>
    if (p.e i).broken = true then some p
    else match Net.step (p.e i).c (.readable s) with
      | none => none
      | some (c, rv) =>
        match ({ (p.e i) with c := c, ops := (p.e i).ops ++ [.readable s], broken := decide (rv < 0) } : End σ E M).receive (k i) with
        | none => none
        | some x => some (p.setE i x)
  | .net i n =>
    if (p.e (!i)).broken = true then some p
    else match Net.step (p.e (!i)).c (.arrive (((p.e i).c.sock.drop (p.net i)).take n)) with
      | none => none
      | some (c, _) => some
          { (p.setE (!i) { (p.e (!i)) with c := c, ops := (p.e (!i)).ops ++ [.arrive (((p.e i).c.sock.drop (p.net i)).take n)] }) with
            net := fun j => if j = i then p.net i + (((p.e i).c.sock.drop (p.net i)).take n).length else p.net j }
  | .clobber i e =>
    if (p.e i).broken = true then some p
    else match Net.step (p.e i).c (.clobber e) with
      | none => none
      | some (c, _) => some (p.setE i { (p.e i) with c := c, ops := (p.e i).ops ++ [.clobber e] })

def Pair.run (k : Bool → Codec σ E) (pieces : M → List (List Byte)) (p : Pair σ E M) : List (POp M) → Option (Pair σ E M)
  | [] => some p
  | o :: t => match p.step k pieces o with
    | none => none
    | some p' => p'.run k pieces t

/-! ### What a codec has to do for it -/

/-- The bytes of a message. -/
def wireOf (pieces : M → List (List Byte)) (m : M) : List Byte := (pieces m).flatten

/-- A codec reads the messages `ok` from every stream of them, whatever the pieces: `R s st rest got` says that having read the stream
`s` it is in state `st`, leaves `rest` in the buffer and has handed on `got`. -/
structure Reads (k : Codec σ E) (ok : M → Prop) (pieces : M → List (List Byte)) (ev : M → List E) where
  R : List Byte → σ → List Byte → List E → Prop
  init : R [] k.init [] []
  step : ∀ {s st rest got x} {ms : List M}, R s st rest got → (∀ m ∈ ms, ok m) → s ++ x <+: ms.flatMap (wireOf pieces) →
    ∃ st' evs n, k.proc st (rest ++ x) = some (st', evs, n) ∧ R (s ++ x) st' ((rest ++ x).drop n) (got ++ evs)
  pre : ∀ {s st rest got} {ms : List M}, R s st rest got → (∀ m ∈ ms, ok m) → s <+: ms.flatMap (wireOf pieces) →
    got <+: ms.flatMap ev

/-- … and hands on a message as soon as it has been read. -/
def Prompt {k : Codec σ E} {ok : M → Prop} {pieces : M → List (List Byte)} {ev : M → List E} (r : Reads k ok pieces ev) : Prop :=
  ∀ {s st rest got} {ms : List M}, r.R s st rest got → (∀ m ∈ ms, ok m) → s = ms.flatMap (wireOf pieces) → got = ms.flatMap ev

/-- Fewer messages. -/
def Reads.weaken {k : Codec σ E} {ok ok' : M → Prop} {pieces : M → List (List Byte)} {ev : M → List E} (r : Reads k ok pieces ev)
    (h : ∀ m, ok' m → ok m) : Reads k ok' pieces ev where
  R := r.R
  init := r.init
  step := fun hR hms hp => r.step hR (fun m hm => h m (hms m hm)) hp
  pre := fun hR hms hp => r.pre hR (fun m hm => h m (hms m hm)) hp

/-- The messages end `i` sends in a history are among `ok i`. -/
def OkOpsOf (ok : Bool → M → Prop) (h : List (POp M)) : Prop := ∀ o ∈ h, ∀ i m s, o = .send i m s → ok i m

/-- The messages of a history are among `ok`. -/
abbrev OkOps (ok : M → Prop) (h : List (POp M)) : Prop := OkOpsOf (fun _ => ok) h

/-! ### The invariant -/

section
variable {k : Bool → Codec σ E} {ok : Bool → M → Prop} {pieces : M → List (List Byte)} {ev : Bool → M → List E}

structure EInv (R : List Byte → σ → List Byte → List E → Prop) (ok : M → Prop) (pieces : M → List (List Byte))
    (e o : End σ E M) (n : Nat) : Prop where
  good : e.broken = false → Good e.ops e.c
  inInv : e.c.inb.Inv
  sock : e.c.sock <+: sentOf e.ops
  sentPre : sentOf e.ops <+: e.sent.flatMap (wireOf pieces)
  sentAll : e.broken = false → sentOf e.ops = e.sent.flatMap (wireOf pieces)
  arr : arrivedOf e.ops = o.c.sock.take n
  arrived : e.c.taken ++ e.c.inb.asString ++ e.c.peer = arrivedOf e.ops
  reads : R (e.c.taken ++ e.c.inb.asString) e.st e.c.inb.asString e.got
  oks : ∀ m ∈ e.sent, ok m

/-- Only the other end's accepted bytes matter to an end, and more of them do not hurt what has arrived. -/
theorem EInv.mono {R : List Byte → σ → List Byte → List E → Prop} {ok : M → Prop} {e o o' : End σ E M} {n : Nat} (h : EInv R ok pieces e o n)
    (hn : n ≤ o.c.sock.length) (hp : o.c.sock <+: o'.c.sock) : EInv R ok pieces e o' n := by
  refine ⟨h.good, h.inInv, h.sock, h.sentPre, h.sentAll, ?_, h.arrived, h.reads, h.oks⟩
  obtain ⟨x, hx⟩ := hp
  rw [← hx, List.take_append_of_le_length hn]
  exact h.arr

structure PInv (R : Bool → List Byte → σ → List Byte → List E → Prop) (ok : Bool → M → Prop) (pieces : M → List (List Byte))
    (p : Pair σ E M) : Prop where
  ends : ∀ i, EInv (R i) (ok i) pieces (p.e i) (p.e (!i)) (p.net (!i))
  nets : ∀ i, p.net i ≤ (p.e i).c.sock.length

theorem sendOne_spec (direct : Bool) {c : Chan} {ops : List Op} (g : Good ops c) (d : List Byte) (s : List WRes) (hf : Fits (.send d s)) :
    ∃ c' rv, sendOne direct c d s = some (c', rv) ∧ c'.inb = c.inb ∧ c'.taken = c.taken ∧ c'.peer = c.peer ∧ c.sock <+: c'.sock ∧
      c'.sock <+: sentOf (ops ++ [.send d s]) ∧ (0 ≤ rv → Good (ops ++ [.send d s]) c') := by
  unfold sendOne
  cases direct with
  | true =>
    rw [if_pos rfl]
    obtain ⟨c1, rv, e1, i1, i2, i3, i4, _⟩ := send_spec s c d g.outInv
    have estep : Net.step c (.send d s) = some (c1, rv) := by
      simp only [Net.step, sendString_eq c d s hf]; exact e1
    obtain ⟨c2, rv2, e2, j1, j2, _, j4⟩ := step_good g (.send d s) hf
    rw [estep] at e2
    simp only [Option.some.injEq, Prod.mk.injEq] at e2
    obtain ⟨rfl, rfl⟩ := e2
    exact ⟨c1, rv, estep, i2, i4, i3, j2, j1, j4⟩
  | false =>
    rw [if_neg (by decide)]
    unfold bufSend
    obtain ⟨o, e, i, a⟩ := write_spec c.out g.outInv d
    simp only [e]
    obtain ⟨i1, i2, i3, i4, ⟨x, x1, x2, x3⟩, i6, i7⟩ := handleWrite_spec s { c with out := o } i
    have hs : sentOf (ops ++ [Op.send d s]) = sentOf ops ++ d := by rw [sentOf_append]; simp [sentOf]
    have ha : arrivedOf (ops ++ [Op.send d s]) = arrivedOf ops := by rw [arrivedOf_append]; simp [arrivedOf]
    generalize ({ c with out := o } : Chan).handleWrite s = q at *
    simp only at x1 x2 a
    have htot : q.1.sock ++ q.1.out.asString = sentOf ops ++ d := by
      rw [x1, List.append_assoc, x2, a, ← List.append_assoc, g.sent]
    refine ⟨q.1, q.2, rfl, i2, i4, i3, ⟨x, x1.symm⟩, ?_, ?_⟩
    · rw [hs]; exact ⟨_, htot⟩
    · intro hge
      refine ⟨by rw [i2]; exact g.inInv, i1, by rw [hs]; exact htot, by rw [ha, i2, i3, i4]; exact g.arrived, fun h => (i7 hge).1 h⟩

/-- What sending does to the channel, whether it fails or not. -/
theorem sendPieces_spec (direct : Bool) (l : List (List Byte × List WRes)) {c : Chan} {ops : List Op} (g : Good ops c)
    (hf : ∀ x ∈ l, Fits (.send x.1 x.2)) :
    ∃ c' ops' b, sendPieces direct c ops l = some (c', ops', b) ∧ c'.inb = c.inb ∧ c'.taken = c.taken ∧ c'.peer = c.peer ∧
      c.sock <+: c'.sock ∧ c'.sock <+: sentOf ops' ∧ arrivedOf ops' = arrivedOf ops ∧
      sentOf ops' <+: sentOf ops ++ (l.map Prod.fst).flatten ∧
      (b = false → Good ops' c' ∧ sentOf ops' = sentOf ops ++ (l.map Prod.fst).flatten) := by
  induction l generalizing c ops with
  | nil => exact ⟨c, ops, false, rfl, rfl, rfl, rfl, List.prefix_refl _, ⟨_, g.sent⟩, rfl, by simp, fun _ => ⟨g, by simp⟩⟩
  | cons x t ih =>
    obtain ⟨d, s⟩ := x
    have hd : Fits (.send d s) := hf (d, s) List.mem_cons_self
    obtain ⟨c1, rv, estep, i2, i4, i3, j2, j1, j4⟩ := sendOne_spec direct g d s hd
    have hs : sentOf (ops ++ [Op.send d s]) = sentOf ops ++ d := by rw [sentOf_append]; simp [sentOf]
    have ha : arrivedOf (ops ++ [Op.send d s]) = arrivedOf ops := by rw [arrivedOf_append]; simp [arrivedOf]
    have esend : sendPieces direct c ops ((d, s) :: t) =
        if rv < 0 then some (c1, ops ++ [.send d s], true) else sendPieces direct c1 (ops ++ [.send d s]) t := by
      rw [sendPieces, estep, Option.bind_some]
    rw [esend]
    by_cases hrv : rv < 0
    · simp only [if_pos hrv]
      refine ⟨_, _, _, rfl, i2, i4, i3, j2, j1, ha, ?_, by simp⟩
      rw [hs]
      simp only [List.map_cons, List.flatten_cons]
      exact ⟨(t.map Prod.fst).flatten, by simp⟩
    · simp only [if_neg hrv]
      obtain ⟨c', ops', b, q1, q2, q3, q4, q5, q6, q7, q8, q9⟩ := ih (j4 (by omega)) (fun x hx => hf x (List.mem_cons_of_mem _ hx))
      refine ⟨c', ops', b, q1, q2.trans i2, q3.trans i4, q4.trans i3, j2.trans q5, q6, q7.trans ha, ?_, ?_⟩
      · rw [hs] at q8; simpa using q8
      · intro hb
        obtain ⟨r1, r2⟩ := q9 hb
        refine ⟨r1, ?_⟩
        rw [r2, hs]; simp

theorem zip_fst (a : List (List Byte)) (b : List (List WRes)) :
    (a.zip (b ++ List.replicate a.length [])).map Prod.fst = a := by
  rw [List.map_fst_zip]
  simp

theorem not_self (i : Bool) : (!i) ≠ i := by cases i <;> decide

theorem setE_same (p : Pair σ E M) (i : Bool) (x : End σ E M) : (p.setE i x).e i = x := by simp [Pair.setE]

theorem setE_other (p : Pair σ E M) {i j : Bool} (h : j ≠ i) (x : End σ E M) : (p.setE i x).e j = p.e j := by simp [Pair.setE, h]

/-- Replacing one end by one that accepted at least as much. -/
theorem PInv.update {R : Bool → List Byte → σ → List Byte → List E → Prop} {p : Pair σ E M} (h : PInv R ok pieces p) (i : Bool)
    (x : End σ E M) (hs : (p.e i).c.sock <+: x.c.sock) (hx : EInv (R i) (ok i) pieces x (p.e (!i)) (p.net (!i))) :
    PInv R ok pieces (p.setE i x) := by
  constructor
  · intro j
    by_cases hj : j = i
    · subst hj
      rw [setE_same, setE_other p (not_self j)]
      exact hx
    · have hji : (!j) = i := by cases i <;> cases j <;> simp_all
      rw [setE_other p hj, hji, setE_same]
      have hh := h.ends j
      rw [hji] at hh
      exact hh.mono (h.nets i) hs
  · intro j
    by_cases hj : j = i
    · subst hj
      rw [setE_same]
      exact Nat.le_trans (h.nets j) hs.length_le
    · rw [setE_other p hj]; exact h.nets j

theorem prefix_of_take {a b : List Byte} {n : Nat} (h : a <+: b.take n) : a <+: b := h.trans (List.take_prefix n b)

/-- What has been read at an end is a prefix of the other's messages. -/
theorem PInv.read_prefix {R : Bool → List Byte → σ → List Byte → List E → Prop} {p : Pair σ E M} (h : PInv R ok pieces p) (i : Bool) :
    (p.e i).c.taken ++ (p.e i).c.inb.asString ++ (p.e i).c.peer <+: (p.e (!i)).sent.flatMap (wireOf pieces) := by
  have hi := h.ends i
  have ho := h.ends (!i)
  rw [hi.arrived, hi.arr]
  exact ((List.take_prefix _ _).trans ho.sock).trans ho.sentPre

theorem receive_inv {kk : Codec σ E} {f : M → List E} {ok ok' : M → Prop} (r : Reads kk ok pieces f) {e o : End σ E M} {n : Nat}
    {s rest x : List Byte} {ms : List M}
    (hread : r.R s e.st rest e.got) (hin : e.c.inb.asString = rest ++ x) (htk : e.c.taken ++ e.c.inb.asString = s ++ x)
    (hms : ∀ m ∈ ms, ok m) (hpre : s ++ x <+: ms.flatMap (wireOf pieces)) (hempty : rest ++ x = [] → x = [])
    (hgood : e.broken = false → Good e.ops e.c) (inInv : e.c.inb.Inv) (hsock : e.c.sock <+: sentOf e.ops)
    (h1 : sentOf e.ops <+: e.sent.flatMap (wireOf pieces)) (h2 : e.broken = false → sentOf e.ops = e.sent.flatMap (wireOf pieces))
    (harr : arrivedOf e.ops = o.c.sock.take n) (harr2 : e.c.taken ++ e.c.inb.asString ++ e.c.peer = arrivedOf e.ops)
    (hoks : ∀ m ∈ e.sent, ok' m) :
    ∃ e', e.receive kk = some e' ∧ EInv r.R ok' pieces e' o n ∧ e'.c.sock = e.c.sock ∧ e'.broken = e.broken ∧ e'.sent = e.sent ∧
      e'.c.peer = e.c.peer ∧ e'.c.out = e.c.out := by
  unfold End.receive
  by_cases he : e.c.inb.asString = []
  · rw [if_pos he]
    have hrx : rest ++ x = [] := by rw [← hin]; exact he
    have hx : x = [] := hempty hrx
    refine ⟨e, rfl, ⟨hgood, inInv, hsock, h1, h2, harr, harr2, ?_, hoks⟩, rfl, rfl, rfl, rfl, rfl⟩
    rw [htk, hin, hx, List.append_nil, List.append_nil]
    exact hread
  · rw [if_neg he, hin]
    obtain ⟨st', evs, m, hp, hR⟩ := r.step hread hms hpre
    rw [hp]
    simp only
    have hc := consume_asString e.c.inb inInv m
    have hsent : sentOf (e.ops ++ [Op.appConsume m]) = sentOf e.ops := by rw [sentOf_append]; simp [sentOf]
    have harrv : arrivedOf (e.ops ++ [Op.appConsume m]) = arrivedOf e.ops := by rw [arrivedOf_append]; simp [arrivedOf]
    refine ⟨_, rfl, ?_, rfl, rfl, rfl, rfl, rfl⟩
    refine ⟨?_, consume_inv _ inInv _, ?_, ?_, ?_, ?_, ?_, ?_, hoks⟩
    · intro hb
      obtain ⟨c', rv, q, _, _, _, q4⟩ := step_good (hgood hb) (.appConsume m) trivial
      simp only [Net.step, Option.some.injEq, Prod.mk.injEq] at q
      obtain ⟨rfl, rfl⟩ := q
      have := q4 (by decide)
      rw [hin] at this
      exact this
    · rw [hsent]; exact hsock
    · rw [hsent]; exact h1
    · intro hb; rw [hsent]; exact h2 hb
    · rw [harrv]; exact harr
    · rw [harrv, ← harr2]
      simp only [hc, hin]
      rw [List.append_assoc e.c.taken, List.take_append_drop]
    · simp only [hc, hin]
      rw [List.append_assoc e.c.taken, List.take_append_drop, ← hin, htk, hin]
      exact hR

variable (r : ∀ i, Reads (k i) (ok (!i)) pieces (ev i))

theorem PInv.init : PInv (fun i => (r i).R) ok pieces (Pair.init k) := by
  constructor
  · intro i
    refine ⟨fun _ => ⟨IOBuffer.init_inv, IOBuffer.init_inv, rfl, rfl, fun _ => rfl⟩, IOBuffer.init_inv, List.prefix_refl _, by simp [Pair.init, sentOf], by simp [Pair.init, sentOf],
      by simp [Pair.init, Chan.init, arrivedOf], rfl, ?_, by simp [Pair.init]⟩
    exact (r i).init
  · intro i; simp [Pair.init]

theorem PInv.step {p : Pair σ E M} {o : POp M} (h : PInv (fun i => (r i).R) ok pieces p)
    (hlen : ∀ i m, ok i m → ∀ d ∈ pieces m, d.length < 2 ^ 31) (hok : ∀ i m s, o = .send i m s → ok i m) :
    ∃ p', p.step k pieces o = some p' ∧ PInv (fun i => (r i).R) ok pieces p' := by
  cases o with
  | send i m s =>
    simp only [Pair.step]
    by_cases hb : (p.e i).broken = true
    · rw [if_pos hb]; exact ⟨p, rfl, h⟩
    · rw [if_neg hb]
      have hb' : (p.e i).broken = false := by simpa using hb
      have hi := h.ends i
      have hm := hok i m s rfl
      obtain ⟨c', ops', b, q1, q2, q3, q4, q5, q6, q7, q8, q9⟩ :=
        sendPieces_spec (k i).direct ((pieces m).zip (s ++ List.replicate (pieces m).length [])) (hi.good hb')
          (fun x hx => hlen i m hm x.1 (List.of_mem_zip hx).1)
      rw [q1]
      rw [zip_fst] at q8 q9
      refine ⟨_, rfl, h.update i _ q5 ?_⟩
      refine ⟨fun hbb => (q9 hbb).1, by show c'.inb.Inv; rw [q2]; exact hi.inInv, q6, ?_, ?_, by rw [q7]; exact hi.arr, ?_, ?_, ?_⟩
      · rw [hi.sentAll hb'] at q8
        simpa [wireOf] using q8
      · intro hbb
        have := (q9 hbb).2
        rw [hi.sentAll hb'] at this
        simpa [wireOf] using this
      · show c'.taken ++ c'.inb.asString ++ c'.peer = arrivedOf ops'
        rw [q7, q2, q3, q4]; exact hi.arrived
      · show (r i).R (c'.taken ++ c'.inb.asString) _ c'.inb.asString _
        rw [q2, q3]; exact hi.reads
      · intro y hy
        rcases List.mem_append.1 hy with hy | hy
        · exact hi.oks y hy
        · rw [List.mem_singleton.1 hy]; exact hm
  | writable i s =>
    simp only [Pair.step]
    by_cases hb : (p.e i).broken = true
    · rw [if_pos hb]; exact ⟨p, rfl, h⟩
    · rw [if_neg hb]
      have hb' : (p.e i).broken = false := by simpa using hb
      have hi := h.ends i
      obtain ⟨c', rv, q1, q2, q3, q4, q5⟩ := step_good (hi.good hb') (.writable s) trivial
      rw [q1]
      obtain ⟨_, w2, w3, w4, _⟩ := handleWrite_spec s (p.e i).c (hi.good hb').outInv
      have hc : c' = ((p.e i).c.handleWrite s).1 := by
        simp only [Net.step, Option.some.injEq] at q1
        rw [q1]
      rw [← hc] at w2 w3 w4
      have hs : sentOf ((p.e i).ops ++ [Op.writable s]) = sentOf (p.e i).ops := by rw [sentOf_append]; simp [sentOf]
      have ha : arrivedOf ((p.e i).ops ++ [Op.writable s]) = arrivedOf (p.e i).ops := by rw [arrivedOf_append]; simp [arrivedOf]
      refine ⟨_, rfl, h.update i _ q3 ?_⟩
      refine ⟨fun hbb => q5 (by simpa using hbb), by show c'.inb.Inv; rw [w2]; exact hi.inInv, q2, by rw [hs]; exact hi.sentPre,
        fun _ => by rw [hs]; exact hi.sentAll hb', by rw [ha]; exact hi.arr, q4, ?_, hi.oks⟩
      show (r i).R (c'.taken ++ c'.inb.asString) _ c'.inb.asString _
      rw [w2, w4]; exact hi.reads
  | readable i s =>
    simp only [Pair.step]
    by_cases hb : (p.e i).broken = true
    · rw [if_pos hb]; exact ⟨p, rfl, h⟩
    · rw [if_neg hb]
      have hb' : (p.e i).broken = false := by simpa using hb
      have hi := h.ends i
      have ho := h.ends (!i)
      obtain ⟨c', rv, q1, q2, q3, q4, q5⟩ := step_good (hi.good hb') (.readable s) trivial
      rw [q1]
      obtain ⟨c2, okk, j0, j1, j2, j3, j4, j5, j6, ⟨x, hx⟩, _⟩ := readLoop_spec s (p.e i).c hi.inInv
      have hc : c' = c2 := by
        simp only [Net.step, Chan.handleRead, j0] at q1
        cases okk <;> simp only [Option.some.injEq, Prod.mk.injEq] at q1 <;> exact q1.1.symm
      subst hc
      have hs : sentOf ((p.e i).ops ++ [Op.readable s]) = sentOf (p.e i).ops := by rw [sentOf_append]; simp [sentOf]
      have ha : arrivedOf ((p.e i).ops ++ [Op.readable s]) = arrivedOf (p.e i).ops := by rw [arrivedOf_append]; simp [arrivedOf]
      have hpre : (p.e i).c.taken ++ (p.e i).c.inb.asString ++ x <+: (p.e (!i)).sent.flatMap (wireOf pieces) := by
        refine List.IsPrefix.trans ?_ (h.read_prefix i)
        rw [List.append_assoc, List.append_assoc, ← hx, ← j6]
        exact ⟨c'.peer, by rw [List.append_assoc]⟩
      obtain ⟨e', r1, r2, r3, _⟩ := receive_inv (r i) (ok := ok (!i)) (ok' := ok i) (pieces := pieces)
        (e := { (p.e i) with c := c', ops := (p.e i).ops ++ [.readable s], broken := decide (rv < 0) }) (o := p.e (!i)) (n := p.net (!i))
        (s := (p.e i).c.taken ++ (p.e i).c.inb.asString) (rest := (p.e i).c.inb.asString) (x := x) (ms := (p.e (!i)).sent)
        hi.reads hx (by show c'.taken ++ c'.inb.asString = _; rw [j5, hx, List.append_assoc]) ho.oks hpre
        (fun hh => (List.append_eq_nil_iff.1 hh).2)
        (fun hbb => q5 (by simpa using hbb)) j1 (by rw [hs]; show c'.sock <+: _; rw [j3]; exact hi.sock)
        (by rw [hs]; exact hi.sentPre) (fun _ => by rw [hs]; exact hi.sentAll hb') (by rw [ha]; exact hi.arr)
        (by rw [ha] at q4 ⊢; exact q4) hi.oks
      simp only at r1 ⊢
      rw [r1]
      refine ⟨_, rfl, h.update i _ ?_ r2⟩
      rw [r3]
      show _ <+: c'.sock
      rw [j3]
      exact List.prefix_refl _
  | net i n =>
    generalize (fun i => (r i).R) = RR at h ⊢
    simp only [Pair.step]
    by_cases hb : (p.e (!i)).broken = true
    · rw [if_pos hb]; exact ⟨p, rfl, h⟩
    · rw [if_neg hb]
      have hb' : (p.e (!i)).broken = false := by simpa using hb
      have hi := h.ends (!i)
      rw [Bool.not_not] at hi
      generalize hbs : ((p.e i).c.sock.drop (p.net i)).take n = bs
      obtain ⟨c', rv, q1, q2, q3, q4, q5⟩ := step_good (hi.good hb') (.arrive bs) trivial
      rw [q1]
      have hc : c' = { (p.e (!i)).c with peer := (p.e (!i)).c.peer ++ bs } ∧ rv = 0 := by
        simp only [Net.step, Option.some.injEq, Prod.mk.injEq] at q1
        exact ⟨q1.1.symm, q1.2.symm⟩
      obtain ⟨rfl, rfl⟩ := hc
      have hs : sentOf ((p.e (!i)).ops ++ [Op.arrive bs]) = sentOf (p.e (!i)).ops := by rw [sentOf_append]; simp [sentOf]
      have ha : arrivedOf ((p.e (!i)).ops ++ [Op.arrive bs]) = arrivedOf (p.e (!i)).ops ++ bs := by rw [arrivedOf_append]; simp [arrivedOf]
      have hlenb : p.net i + bs.length ≤ (p.e i).c.sock.length := by
        rw [← hbs]
        have := h.nets i
        simp only [List.length_take, List.length_drop]
        omega
      have htake : (p.e i).c.sock.take (p.net i + bs.length) = (p.e i).c.sock.take (p.net i) ++ bs := by
        rw [List.take_add]
        congr 1
        rw [← hbs, List.length_take, List.length_drop]
        by_cases hle : n ≤ (p.e i).c.sock.length - p.net i
        · rw [Nat.min_eq_left hle]
        · rw [Nat.min_eq_right (by omega), List.take_of_length_le (i := n) (by simp; omega), List.take_of_length_le (by simp)]
      refine ⟨_, rfl, ?_⟩
      constructor
      · intro j
        by_cases hj : j = i
        · subst hj
          have e1 : (p.setE (!j) { (p.e (!j)) with c := { (p.e (!j)).c with peer := (p.e (!j)).c.peer ++ bs }, ops := (p.e (!j)).ops ++ [.arrive bs] }).e j = p.e j :=
            setE_other p (Ne.symm (not_self j)) _
          have e2 : (fun jj => if jj = j then p.net j + bs.length else p.net jj) (!j) = p.net (!j) := by simp
          simp only
          rw [e1, setE_same]
          rw [if_neg (not_self j)]
          exact (h.ends j).mono (h.nets (!j)) (List.prefix_refl _)
        · have hji : (!j) = i := by cases i <;> cases j <;> simp_all
          have hji' : j = !i := by cases i <;> cases j <;> simp_all
          subst hji'
          simp only [Bool.not_not]
          rw [setE_same, setE_other p (Ne.symm (not_self i))]
          simp only [if_true]
          refine ⟨fun _ => q5 (by decide), hi.inInv, by rw [hs]; exact hi.sock, by rw [hs]; exact hi.sentPre, fun _ => by rw [hs]; exact hi.sentAll hb', ?_, q4,
            hi.reads, hi.oks⟩
          rw [ha, htake, hi.arr]
      · intro j
        by_cases hj : j = i
        · subst hj
          simp only [if_true]
          rw [setE_other p (Ne.symm (not_self j))]
          exact hlenb
        · have hji' : j = !i := by cases i <;> cases j <;> simp_all
          subst hji'
          simp only
          rw [setE_same, if_neg (not_self i)]
          exact h.nets (!i)
  | clobber i er =>
    simp only [Pair.step]
    by_cases hb : (p.e i).broken = true
    · rw [if_pos hb]; exact ⟨p, rfl, h⟩
    · rw [if_neg hb]
      have hb' : (p.e i).broken = false := by simpa using hb
      have hi := h.ends i
      have hs : sentOf ((p.e i).ops ++ [Op.clobber er]) = sentOf (p.e i).ops := by rw [sentOf_append]; simp [sentOf]
      have ha : arrivedOf ((p.e i).ops ++ [Op.clobber er]) = arrivedOf (p.e i).ops := by rw [arrivedOf_append]; simp [arrivedOf]
      obtain ⟨c', rv, q1, q2, q3, q4, q5⟩ := step_good (hi.good hb') (.clobber er) trivial
      rw [q1]
      have hc : c' = { (p.e i).c with errno := er } ∧ rv = 0 := by
        simp only [Net.step, Option.some.injEq, Prod.mk.injEq] at q1
        exact ⟨q1.1.symm, q1.2.symm⟩
      obtain ⟨rfl, rfl⟩ := hc
      refine ⟨_, rfl, h.update i _ q3 ?_⟩
      exact ⟨fun _ => q5 (by decide), hi.inInv, q2, by rw [hs]; exact hi.sentPre, fun _ => by rw [hs]; exact hi.sentAll hb', by rw [ha]; exact hi.arr, q4,
        hi.reads, hi.oks⟩

theorem PInv.run {ops : List (POp M)} {p : Pair σ E M} (h : PInv (fun i => (r i).R) ok pieces p)
    (hlen : ∀ i m, ok i m → ∀ d ∈ pieces m, d.length < 2 ^ 31) (hok : OkOpsOf ok ops) :
    ∃ p', p.run k pieces ops = some p' ∧ PInv (fun i => (r i).R) ok pieces p' := by
  induction ops generalizing p with
  | nil => exact ⟨p, rfl, h⟩
  | cons o t ih =>
    obtain ⟨p1, e1, h1⟩ := PInv.step r h hlen (fun i m s he => hok o (by simp) i m s he)
    obtain ⟨p', e', h'⟩ := ih h1 (fun x hx => hok x (List.mem_cons_of_mem _ hx))
    exact ⟨p', by simp only [Pair.run, e1]; exact e', h'⟩

/-! ### The messages -/

include r in
/-- Nothing undefined happens, and at each end the codec has handed on a prefix of what the other end's application sent. -/
theorem safe_and_prefix {ops : List (POp M)} (hlen : ∀ i m, ok i m → ∀ d ∈ pieces m, d.length < 2 ^ 31) (hok : OkOpsOf ok ops) :
    ∃ p : Pair σ E M, (Pair.init k).run k pieces ops = some p ∧ ∀ i, (p.e i).got <+: (p.e (!i)).sent.flatMap (ev i) := by
  obtain ⟨p, e, h⟩ := PInv.run r (PInv.init r) hlen hok
  refine ⟨p, e, fun i => ?_⟩
  refine (r i).pre (h.ends i).reads (h.ends (!i)).oks ?_
  exact List.IsPrefix.trans ⟨(p.e i).c.peer, rfl⟩ (h.read_prefix i)

/-- Once everything has been written, has arrived and has been read, it is everything. -/
theorem complete {ops : List (POp M)} {p : Pair σ E M} (hlen : ∀ i m, ok i m → ∀ d ∈ pieces m, d.length < 2 ^ 31) (hok : OkOpsOf ok ops)
    (hrun : (Pair.init k).run k pieces ops = some p) (i : Bool) (hpr : Prompt (r i))
    (h1 : (p.e (!i)).broken = false) (h2 : (p.e (!i)).c.out.asString = []) (h3 : p.net (!i) = (p.e (!i)).c.sock.length)
    (h4 : (p.e i).c.peer = []) : (p.e i).got = (p.e (!i)).sent.flatMap (ev i) := by
  obtain ⟨p', e, h⟩ := PInv.run r (PInv.init r) hlen hok
  rw [hrun] at e
  simp only [Option.some.injEq] at e
  subst e
  have hi := h.ends i
  have ho := h.ends (!i)
  refine hpr hi.reads ho.oks ?_
  have e1 := hi.arrived
  rw [h4, List.append_nil, hi.arr, h3, List.take_length] at e1
  rw [e1]
  have e2 := (ho.good h1).sent
  rw [h2, List.append_nil, ho.sentAll h1] at e2
  exact e2

/-! ### Getting there -/

/-- A socket that accepts a byte at a time lets a write event flush everything. -/
theorem flush_all {c : Chan} (h : c.out.Inv) (hlt : c.out.asString.length < 2 ^ 31) :
    (c.handleWrite (List.replicate c.out.asString.length (.ok 0))).1.out.asString = [] ∧
    0 ≤ (c.handleWrite (List.replicate c.out.asString.length (.ok 0))).2 := by
  have hlen := asString_length c.out h
  generalize hsc : List.replicate c.out.asString.length (WRes.ok 0) = script
  have hok : ∀ r ∈ script, ∃ n, r = WRes.ok n := by
    intro r hr
    rw [← hsc] at hr
    exact ⟨0, (List.mem_replicate.1 hr).2⟩
  have hl : c.out.canRead ≤ script.length := by rw [← hsc, List.length_replicate, hlen]; exact Nat.le_refl _
  obtain ⟨i1, _, _, _, _, i6, _⟩ := handleWrite_spec script c h
  have hrv : 0 ≤ (c.handleWrite script).2 := by
    rcases Int.lt_or_le (c.handleWrite script).2 0 with hneg | hge
    · rcases i6 hneg with hh | hh
      · obtain ⟨n, hn⟩ := hok _ hh; exact absurd hn (by simp)
      · omega
    · exact hge
  refine ⟨?_, hrv⟩
  obtain ⟨d1, d2⟩ := writeLoop_drains script c 0 h hok hl
  have hz : (c.handleWrite script).1.out.canRead = 0 := by
    unfold Chan.handleWrite
    by_cases h0 : c.out.canRead = 0
    · rw [if_pos h0]; exact h0
    · rw [if_neg h0]
      rcases hw : writeLoop script c 0 with ⟨c', o⟩
      rw [hw] at d1 d2
      cases o with
      | none => exact absurd rfl d2
      | some t => exact d1
  rw [← asString_length _ i1] at hz
  exact List.eq_nil_of_length_eq_zero hz

/-- A socket that gives a byte at a time lets a read event read everything. -/
theorem read_all (n : Nat) : ∀ (c : Chan), c.inb.Inv → c.peer.length = n →
    ∃ c', readLoop (List.replicate n (.data 0)) c = some (c', true) ∧ c'.peer = [] := by
  induction n with
  | zero =>
    intro c h hp
    obtain ⟨b, e, i, a, _⟩ := ensure_spec c.inb h kBlockSize
    refine ⟨{ c with inb := b, errno := .again }, ?_, ?_⟩
    · simp only [List.replicate_zero, readLoop, e]
    · exact List.eq_nil_of_length_eq_zero hp
  | succ n ih =>
    intro c h hp
    obtain ⟨b, e, i, a, hw, _⟩ := ensure_spec c.inb h kBlockSize
    have hkb : 1 ≤ b.canWrite := by
      have : (kBlockSize : Int) ≤ b.canWrite := hw
      have hk : kBlockSize = 2048 := rfl
      omega
    have hm : min (0 + 1) (min b.canWrite c.peer.length) = 1 := by omega
    obtain ⟨b', e', i', a', _⟩ := rawProduce_spec b i (c.peer.take 1) (by simp; omega)
    obtain ⟨c', q1, q2⟩ := ih { c with inb := b', peer := c.peer.drop 1 } i' (by simp; omega)
    refine ⟨c', ?_, q2⟩
    rw [List.replicate_succ]
    simp only [readLoop, e, hm, e']
    rw [if_neg (by decide)]
    exact q1

/-- The steps that bring over everything end `j` has sent. -/
def bringOver (p : Pair σ E M) (j : Bool) : List (POp M) :=
  [.writable j (List.replicate (p.e j).c.out.asString.length (.ok 0)),
   .net j ((p.e j).c.out.asString.length + (p.e j).c.sock.length),
   .readable (!j) (List.replicate ((p.e (!j)).c.peer.length + ((p.e j).c.sock.length + (p.e j).c.out.asString.length - p.net j)) (.data 0))]

theorem run_append {kk : Bool → Codec σ E} {pc : M → List (List Byte)} {p q : Pair σ E M} {a b : List (POp M)} (h : p.run kk pc a = some q) :
    p.run kk pc (a ++ b) = q.run kk pc b := by
  induction a generalizing p with
  | nil => simp only [Pair.run, Option.some.injEq] at h; subst h; rfl
  | cons o t ih =>
    simp only [Pair.run] at h
    rw [List.cons_append]
    simp only [Pair.run]
    cases ho : p.step kk pc o with
    | none => rw [ho] at h; simp at h
    | some p1 => rw [ho] at h; exact ih h

/-- As long as neither end has seen an error, everything sent so far can still be brought over. -/
theorem progress {ops : List (POp M)} {p : Pair σ E M} (hlen : ∀ i m, ok i m → ∀ d ∈ pieces m, d.length < 2 ^ 31) (hok : OkOpsOf ok ops)
    (hrun : (Pair.init k).run k pieces ops = some p) (i : Bool) (hpr : Prompt (r i)) (hb : ∀ j, (p.e j).broken = false)
    (hsz : ((p.e (!i)).sent.flatMap (wireOf pieces)).length < 2 ^ 31) :
    ∃ p', p.run k pieces (bringOver p (!i)) = some p' ∧ (p'.e i).got = (p.e (!i)).sent.flatMap (ev i) ∧
      (∀ j, (p'.e j).broken = false) ∧ ∀ j, (p'.e j).sent = (p.e j).sent := by
  obtain ⟨p0, e0, h⟩ := PInv.run r (PInv.init r) hlen hok
  rw [hrun] at e0
  simp only [Option.some.injEq] at e0
  subst e0
  have hi := h.ends i
  have ho := h.ends (!i)
  have gi := hi.good (hb i)
  have go := ho.good (hb _)
  have hsent := go.sent
  rw [ho.sentAll (hb _)] at hsent
  have hol : (p.e (!i)).c.sock.length + (p.e (!i)).c.out.asString.length = ((p.e (!i)).sent.flatMap (wireOf pieces)).length := by
    rw [← hsent, List.length_append]
  have hni := not_self i
  -- the write
  obtain ⟨f1, f2⟩ := flush_all go.outInv (by omega)
  obtain ⟨_, w2, w3, w4, ⟨x, wx1, wx2, _⟩, _⟩ := handleWrite_spec (List.replicate (p.e (!i)).c.out.asString.length (.ok 0)) (p.e (!i)).c go.outInv
  rw [f1, List.append_nil] at wx2
  subst wx2
  generalize hq : (p.e (!i)).c.handleWrite (List.replicate (p.e (!i)).c.out.asString.length (.ok 0)) = q at *
  obtain ⟨c1, rv1⟩ := q
  simp only at f1 f2 w2 w3 w4 wx1
  let e1 : End σ E M := { (p.e (!i)) with c := c1, ops := (p.e (!i)).ops ++ [.writable (List.replicate (p.e (!i)).c.out.asString.length (.ok 0))], broken := false }
  have s1 : p.step k pieces (.writable (!i) (List.replicate (p.e (!i)).c.out.asString.length (.ok 0))) = some (p.setE (!i) e1) := by
    simp only [Pair.step, hb, Net.step, hq]
    rw [if_neg (by decide)]
    have : decide (rv1 < 0) = false := by simpa using f2
    rw [this]
  have h1 : PInv (fun i => (r i).R) ok pieces (p.setE (!i) e1) := by
    obtain ⟨p', a1, a2⟩ := PInv.step r h hlen (o := .writable (!i) (List.replicate (p.e (!i)).c.out.asString.length (.ok 0))) (by simp)
    rw [s1] at a1
    simp only [Option.some.injEq] at a1
    subst a1; exact a2
  -- the network
  have hnet := h.nets (!i)
  generalize hbs : ((c1.sock).drop (p.net (!i))).take ((p.e (!i)).c.out.asString.length + (p.e (!i)).c.sock.length) = bs
  have hbs' : bs = c1.sock.drop (p.net (!i)) := by
    rw [← hbs, List.take_of_length_le]
    rw [List.length_drop, wx1, List.length_append]
    omega
  have hbl : bs.length = (p.e (!i)).c.sock.length + (p.e (!i)).c.out.asString.length - p.net (!i) := by
    rw [hbs', List.length_drop, wx1, List.length_append]
  let e2 : End σ E M := { (p.e i) with c := { (p.e i).c with peer := (p.e i).c.peer ++ bs }, ops := (p.e i).ops ++ [.arrive bs], broken := false }
  let p2 : Pair σ E M := { ((p.setE (!i) e1).setE i e2) with net := fun j => if j = !i then p.net (!i) + bs.length else p.net j }
  have s2 : (p.setE (!i) e1).step k pieces (.net (!i) ((p.e (!i)).c.out.asString.length + (p.e (!i)).c.sock.length)) = some p2 := by
    have ea : (p.setE (!i) e1).e (!i) = e1 := setE_same ..
    have eb : (p.setE (!i) e1).e i = p.e i := setE_other p (Ne.symm hni) _
    simp only [Pair.step, Bool.not_not, ea, eb, hb, Net.step]
    rw [if_neg (by decide)]
    have hbs2 : List.take ((p.e (!i)).c.out.asString.length + (p.e (!i)).c.sock.length) (List.drop ((p.setE (!i) e1).net (!i)) e1.c.sock) = bs := hbs
    rw [hbs2]
    rfl
  have h2 : PInv (fun i => (r i).R) ok pieces p2 := by
    obtain ⟨p', a1, a2⟩ := PInv.step r h1 hlen (o := .net (!i) ((p.e (!i)).c.out.asString.length + (p.e (!i)).c.sock.length)) (by simp)
    rw [s2] at a1
    simp only [Option.some.injEq] at a1
    subst a1; exact a2
  have p2i : p2.e i = e2 := setE_same ..
  have p2o : p2.e (!i) = e1 := by
    show ((p.setE (!i) e1).setE i e2).e (!i) = e1
    rw [setE_other _ hni, setE_same]
  -- the read
  obtain ⟨c3, q1, q2⟩ := read_all ((p.e i).c.peer.length + bs.length) e2.c hi.inInv (by simp [e2])
  obtain ⟨c3', ok3, j0, j1, j2, j3, j4, j5, j6, ⟨y, hy⟩, _⟩ := readLoop_spec (List.replicate ((p.e i).c.peer.length + bs.length) (.data 0)) e2.c hi.inInv
  rw [q1] at j0
  simp only [Option.some.injEq, Prod.mk.injEq] at j0
  obtain ⟨rfl, rfl⟩ := j0
  have htot := (h2.read_prefix i).length_le
  rw [p2i, p2o] at htot
  have hin : c3.inb.asString.length < 2 ^ 31 := by
    rw [q2, List.append_nil] at j6
    rw [j6, List.length_append]
    simp only [List.length_append] at htot
    have : (e1.sent.flatMap (wireOf pieces)).length = ((p.e (!i)).sent.flatMap (wireOf pieces)).length := rfl
    omega
  have hrv3 : 0 ≤ toI32 c3.inb.canRead := by
    rw [← asString_length _ j1, toI32_of_lt hin]
    omega
  obtain ⟨p3, s3, h3⟩ := PInv.step r h2 hlen (o := .readable i (List.replicate ((p.e i).c.peer.length + bs.length) (.data 0))) (by simp)
  have s3' := s3
  simp only [Pair.step, p2i] at s3
  have hbe : ¬ e2.broken = true := by show ¬ false = true; decide
  rw [if_neg hbe] at s3
  simp only [Net.step, Chan.handleRead, q1] at s3
  have hdec : decide (toI32 c3.inb.canRead < 0) = false := by simpa using hrv3
  rw [hdec] at s3
  have hfin : ∃ e3 : End σ E M, p3 = p2.setE i e3 ∧ e3.c.peer = [] ∧ e3.broken = false ∧ e3.sent = (p.e i).sent := by
    unfold End.receive at s3
    by_cases he : c3.inb.asString = []
    · rw [if_pos he] at s3
      simp only [Option.some.injEq] at s3
      exact ⟨_, s3.symm, q2, rfl, rfl⟩
    · rw [if_neg he] at s3
      cases hpc : (k i).proc e2.st c3.inb.asString with
      | none => simp only [hpc] at s3; exact absurd s3 (by simp)
      | some z =>
        obtain ⟨st, evs, n⟩ := z
        simp only [hpc, Option.some.injEq] at s3
        exact ⟨_, s3.symm, q2, rfl, rfl⟩
  obtain ⟨e3, rfl, k1, k2, k3⟩ := hfin
  have erun : p.run k pieces (bringOver p (!i)) = some (p2.setE i e3) := by
    unfold bringOver
    simp only [Pair.run, s1, s2, Bool.not_not, ← hbl, s3']
  have hall : (Pair.init k).run k pieces (ops ++ bringOver p (!i)) = some (p2.setE i e3) := by
    rw [run_append hrun]; exact erun
  have p3i : (p2.setE i e3).e i = e3 := setE_same ..
  have p3o : (p2.setE i e3).e (!i) = e1 := by rw [setE_other _ hni]; exact p2o
  refine ⟨_, erun, ?_, ?_, ?_⟩
  · have := complete r (p := p2.setE i e3) hlen (ops := ops ++ bringOver p (!i)) ?_ hall i hpr (by rw [p3o]) (by rw [p3o]; exact f1) ?_ (by rw [p3i]; exact k1)
    · rw [p3i, p3o] at this
      rw [p3i]; exact this
    · intro o ho' a m s he
      rcases List.mem_append.1 ho' with ho' | ho'
      · exact hok o ho' a m s he
      · subst he
        simp [bringOver] at ho'
    · rw [p3o]
      show (if (!i) = !i then p.net (!i) + bs.length else p.net (!i)) = c1.sock.length
      rw [if_pos rfl, hbl, wx1, List.length_append]
      omega
  · intro j
    by_cases hj : j = i
    · subst hj; rw [p3i]; exact k2
    · have hji : j = !i := by cases i <;> cases j <;> simp_all
      subst hji
      rw [p3o]
  · intro j
    by_cases hj : j = i
    · subst hj; rw [p3i]; exact k3
    · have hji : j = !i := by cases i <;> cases j <;> simp_all
      subst hji
      rw [p3o]

end

end Ltio.Net.E2E
