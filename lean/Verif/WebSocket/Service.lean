import Verif.WebSocket.RoundTrip
namespace Ltio.WebSocket

/-- Flattened events of one frame. -/
def frameEvents (op : Byte) (fin : Bool) (f : Frag) : List FEvent :=
  .header (mkFlags op f.mask.isSome fin) f.payload.length ::
    f.payload.map .byte ++ [.frameEnd (mkFlags op f.mask.isSome fin)]

structure Fr where
  op : Byte
  fin : Bool
  frag : Frag

def Fr.Ok (x : Fr) : Prop := x.op.toNat < 16 ∧ x.frag.Ok
def Fr.wire (x : Fr) : List Byte := wireFrame x.op x.fin x.frag
def Fr.events (x : Fr) : List FEvent := frameEvents x.op x.fin x.frag

theorem execF_frames {p : Parser} (hi : p.Inv) (hs : p.state = .start) (fs : List Fr)
    (hok : ∀ x ∈ fs, x.Ok) :
    ∃ q : Parser, q.state = .start ∧ q.Inv ∧
      execF p (fs.flatMap Fr.wire) = some (q, fs.flatMap Fr.events) := by
  induction fs generalizing p with
  | nil => exact ⟨p, hs, hi, by simp [execF_nil]⟩
  | cons x fs ih =>
    have hx : x.Ok := hok x (by simp)
    have hm : (x.frag.mask.getD [0,0,0,0]).length = 4 := by
      cases h : x.frag.mask with
      | none => rfl
      | some m => exact hx.2.1 m (by simp [h])
    obtain ⟨q, q1, q2, q3⟩ := execF_build hi hs x.op hx.1 x.frag.mask.isSome x.fin
      (x.frag.mask.getD [0,0,0,0]) hm x.frag.payload hx.2.2
    obtain ⟨r, r1, r2, r3⟩ := ih q2 q1 (fun y hy => hok y (by simp [hy]))
    refine ⟨r, r1, r2, ?_⟩
    rw [List.flatMap_cons, execF_append hi]
    have : execF p x.wire = some (q, x.events) := q3
    rw [this]
    simp only [seqF, r3, Option.map_some, List.flatMap_cons]

theorem receive_eq {p : Parser} (hi : p.Inv) (cur : Cur) (chunks : List (List Byte)) :
    receive p cur chunks = match execF p chunks.flatten with
      | none => none
      | some (q, es) => match onFs cur es with
        | none => none
        | some (c', os) => some (q, c', os) := by
  rw [← execChunks_flat hi]
  unfold receive
  cases h : execChunks p chunks with
  | none => rfl
  | some r =>
    obtain ⟨q, es⟩ := r
    have hne := execChunks_no_empty_body p chunks h
    simp only [Option.map_some, onEvents_flat cur es hne]
    cases onFs cur (flatten es) <;> rfl

theorem receive_frames {p : Parser} (hi : p.Inv) (hs : p.state = .start) (cur : Cur) (fs : List Fr)
    (hok : ∀ x ∈ fs, x.Ok) (chunks : List (List Byte)) (hc : chunks.flatten = fs.flatMap Fr.wire) :
    ∃ q : Parser, q.state = .start ∧ q.Inv ∧ receive p cur chunks =
      match onFs cur (fs.flatMap Fr.events) with
        | none => none
        | some (c', os) => some (q, c', os) := by
  obtain ⟨q, q1, q2, q3⟩ := execF_frames hi hs fs hok
  exact ⟨q, q1, q2, by rw [receive_eq hi, hc, q3]⟩

/-- Effect of one complete frame on the message under assembly. -/
theorem onFs_frame (cur : Cur) (op : Byte) (hop : op.toNat < 16) (fin : Bool) (f : Frag) :
    let m := cur.getD ⟨WS_OP_TEXT, []⟩
    let m' : Message := ⟨if op ≠ WS_OP_CONTINUE then op else m.opcode, m.payload ++ f.payload⟩
    onFs cur (frameEvents op fin f) =
      if fin then
        if m'.opcode = WS_OP_CLOSE then some (some m', [.sendClose, .closeService])
        else if m'.opcode = WS_OP_PING then some (none, [.sendPong, .deliver m'])
        else some (none, [.deliver m'])
      else some (some m', []) := by
  intro m m'
  have hfb := flag_bits op hop fin f.mask.isSome
  simp only at hfb
  obtain ⟨_, _, hf3, hf4⟩ := hfb
  unfold frameEvents
  generalize mkFlags op f.mask.isSome fin = fl at *
  have hH : onF cur (.header fl f.payload.length) =
      some (some ⟨m'.opcode, m.payload⟩, []) := by
    simp only [onF, onEvent, hf4]
    by_cases h : op = WS_OP_CONTINUE <;> simp [h, m', m]
  have hE : onF (some m') (.frameEnd fl) = if fin then
        if m'.opcode = WS_OP_CLOSE then some (some m', [.sendClose, .closeService])
        else if m'.opcode = WS_OP_PING then some (none, [.sendPong, .deliver m'])
        else some (none, [.deliver m'])
      else some (some m', []) := by
    simp only [onF, onEvent]
    cases fin with
    | false => rw [if_neg (by rw [hf3]; simp)]; simp
    | true => rw [if_pos (by rw [hf3])]; simp
  rw [List.cons_append, onFs, hH]
  simp only
  rw [onFs_append, onFs_bytes]
  simp only [onFs]
  rw [show (some (⟨m'.opcode, m.payload ++ f.payload⟩ : Message)) = some m' from rfl, hE]
  cases fin with
  | false => simp
  | true =>
    simp only [if_true]
    by_cases h1 : m'.opcode = WS_OP_CLOSE
    · simp [h1]
    · by_cases h2 : m'.opcode = WS_OP_PING <;> simp only [h1, h2, if_true, if_false] <;> simp [WS_OP_PING, WS_OP_CLOSE]

/-- The frames of a sent message. -/
def contFrames : List Frag → List Fr
  | [] => []
  | f :: fs => ⟨WS_OP_CONTINUE, fs.isEmpty, f⟩ :: contFrames fs

def Sent.frames (m : Sent) : List Fr := ⟨m.op, m.rest.isEmpty, m.first⟩ :: contFrames m.rest

theorem wireConts_eq (fs : List Frag) : wireConts fs = (contFrames fs).flatMap Fr.wire := by
  induction fs with
  | nil => rfl
  | cons f fs ih => simp [wireConts, contFrames, ih, Fr.wire]

theorem wire_eq (m : Sent) : m.wire = m.frames.flatMap Fr.wire := by
  simp [Sent.wire, Sent.frames, wireConts_eq, Fr.wire]

theorem frames_ok (m : Sent) (h : m.Ok) : ∀ x ∈ m.frames, x.Ok := by
  have hc : ∀ fs : List Frag, (∀ f ∈ fs, f.Ok) → ∀ x ∈ contFrames fs, x.Ok := by
    intro fs
    induction fs with
    | nil => intro _ x hx; simp [contFrames] at hx
    | cons f fs ih =>
      intro hf x hx
      simp [contFrames] at hx
      rcases hx with rfl | hx
      · exact ⟨show (0:UInt8).toNat < 16 by decide, hf f (by simp)⟩
      · exact ih (fun g hg => hf g (by simp [hg])) x hx
  intro x hx
  simp [Sent.frames] at hx
  rcases hx with rfl | hx
  · exact ⟨h.1, h.2.2.2.1⟩
  · exact hc m.rest h.2.2.2.2 x hx

/-- Outputs for a completed non-close message. -/
def commitOuts (m : Message) : List Out :=
  if m.opcode = WS_OP_PING then [.sendPong, .deliver m] else [.deliver m]

theorem onFs_conts (m : Message) (hm : m.opcode ≠ WS_OP_CLOSE) (fs : List Frag) (hne : fs ≠ []) :
    onFs (some m) ((contFrames fs).flatMap Fr.events) =
      some (none, commitOuts ⟨m.opcode, m.payload ++ fs.flatMap (·.payload)⟩) := by
  induction fs generalizing m with
  | nil => simp at hne
  | cons f fs ih =>
    simp only [contFrames, List.flatMap_cons, Fr.events]
    rw [onFs_append, onFs_frame _ _ (by decide)]
    simp only [Option.getD_some, ne_eq, not_true, if_false, List.isEmpty_iff]
    cases fs with
    | nil =>
      simp only [if_true, hm, if_false]
      by_cases h2 : m.opcode = WS_OP_PING
      · simp [h2, contFrames, onFs, commitOuts]
      · simp [h2, contFrames, onFs, commitOuts]
    | cons g gs =>
      rw [if_neg (by simp)]
      simp only
      rw [ih ⟨m.opcode, m.payload ++ f.payload⟩ hm (by simp)]
      simp

theorem onFs_sent (m : Sent) (h : m.Ok) :
    onFs none (m.frames.flatMap Fr.events) = some (none, commitOuts ⟨m.op, m.payload⟩) := by
  obtain ⟨h1, h2, h3, h4, h5⟩ := h
  simp only [Sent.frames, List.flatMap_cons, Fr.events]
  rw [onFs_append, onFs_frame _ _ h1]
  simp only [Option.getD_none, ne_eq, h2, not_false_eq_true, if_true, List.nil_append, h3, if_false,
    List.isEmpty_iff, Sent.payload]
  cases hr : m.rest with
  | nil =>
    simp only [if_true]
    by_cases hp : m.op = WS_OP_PING
    · simp [hp, contFrames, onFs, commitOuts]
    · simp [hp, contFrames, onFs, commitOuts]
  | cons g gs =>
    rw [if_neg (by simp)]
    simp only
    rw [onFs_conts ⟨m.op, m.first.payload⟩ h3 (g :: gs) (by simp)]
    simp

end Ltio.WebSocket
