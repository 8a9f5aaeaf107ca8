import Verif.Redis.Codec
/-
Model of the request side of the redis client: `RedisRequest`
(net_io/codec/redis/redis_request.{h,cc}) and the RESP encoder (thirdparty/resp/resp/encoder.hpp).

A `resp::buffer` is the list of its bytes: whether it refers to or owns them, and where, is not
modelled.  `std::to_string` and `sprintf("%u")` give decimal text.  `IncrByFloat` is not modelled
(formatting of floating point numbers).
-/
namespace Ltio.Redis.Encode
open Ltio.Redis

abbrev Bytes := List UInt8

/-- ASCII text. -/
def ascii (s : String) : Bytes := s.toList.map (fun c => UInt8.ofNat c.toNat)

/-- `buffers.back().append(x)`. -/
def appendBack (bufs : List Bytes) (x : Bytes) : List Bytes :=
  match bufs with
  | [] => []        -- not reached: `append_size` makes the list non-empty
  | [b] => [b ++ x]
  | b :: bs => b :: appendBack bs x

/-- `append_size` (encoder.hpp:262-276); `%u` prints the low 32 bits. -/
def appendSize (bufs : List Bytes) (ty : UInt8) (size : Nat) : List Bytes :=
  appendBack (if bufs.isEmpty then [[]] else bufs) (ty :: (decText (size % 2 ^ 32) ++ crlf))

/-- `append` (encoder.hpp:236-250): large arguments get a buffer of their own. -/
def append (bufs : List Bytes) (arg : Bytes) : List Bytes :=
  if arg.length > 1024 then appendSize bufs 36 arg.length ++ [arg] ++ [crlf]
  else appendBack (appendBack (appendSize bufs 36 arg.length) arg) crlf

/-- `encode(buffers, cmd, args)` (encoder.hpp:278-286) on an empty vector; the overloads with a
fixed number of arguments (lines 43-140) do the same. -/
def encodeCmd (cmd : Bytes) (args : List Bytes) : List Bytes :=
  args.foldl append (append (appendSize [] 42 (args.length + 1)) cmd)

/-- The request object: `body_` and `cmd_counter_` (redis_request.h). -/
structure Request where
  body : Bytes
  count : Nat
deriving DecidableEq

def Request.empty : Request := ⟨[], 0⟩

/-- Every method appends the buffers to the body and counts one command. -/
def Request.add (r : Request) (cmd : Bytes) (args : List Bytes) : Request :=
  ⟨r.body ++ (encodeCmd cmd args).flatten, (r.count + 1) % 2 ^ 32⟩

/-- The methods of `RedisRequest` that add a command. -/
inductive Call where
  | get (key : Bytes)
  | mget (keys : List Bytes)
  | set (key value : Bytes)
  | setWithExpire (key value : Bytes) (second : Nat)
  | mset (kvs : List (Bytes × Bytes))
  | exist (key : Bytes)
  | delete (key : Bytes)
  | incr (key : Bytes)
  | incrBy (key : Bytes) (n : Nat)
  | decr (key : Bytes)
  | decrBy (key : Bytes) (n : Nat)
  | select (db : Bytes)
  | auth (password : Bytes)
  | ttl (key : Bytes)
  | persist (key : Bytes)
  | expire (key : Bytes) (second : Nat)
  | ping

/-- The bodies of those methods (redis_request.cc:27-194). -/
def Request.call (r : Request) : Call → Request
  | .get k => r.add (ascii "GET") [k]
  | .mget ks => r.add (ascii "MGET") ks
  | .set k v => r.add (ascii "SET") [k, v]
  | .setWithExpire k v s => r.add (ascii "SET") [k, v, ascii "EX", decText s]
  | .mset kvs => r.add (ascii "MSET") (kvs.foldl (fun acc kv => acc ++ [kv.1] ++ [kv.2]) [])
  | .exist k => r.add (ascii "EXISTS") [k]
  | .delete k => r.add (ascii "DEL") [k]
  | .incr k => r.add (ascii "INCR") [k]
  | .incrBy k n => r.add (ascii "INCRBY") [k, decText n]
  | .decr k => r.add (ascii "DECR") [k]
  | .decrBy k n => r.add (ascii "DECRBY") [k, decText n]
  | .select db => r.add (ascii "SELECT") [db]
  | .auth p => r.add (ascii "AUTH") [p]
  | .ttl k => r.add (ascii "TTL") [k]
  | .persist k => r.add (ascii "PERSIST") [k]
  | .expire k s => r.add (ascii "EXPIRE") [k, decText s]
  | .ping => r.add (ascii "PING") []

/-- `AsHeartbeat` (redis_request.cc:196-201). -/
def Request.asHeartbeat (_ : Request) : Request := Request.empty.call .ping

/-- `IsHeartbeat` (redis_request.cc:203-206). -/
def Request.isHeartbeat (r : Request) : Bool := r.body == ascii "PING"

/-! ### Specification: the words of each command (https://redis.io/commands) -/

def words : Call → List Bytes
  | .get k => [ascii "GET", k]
  | .mget ks => ascii "MGET" :: ks
  | .set k v => [ascii "SET", k, v]
  | .setWithExpire k v s => [ascii "SET", k, v, ascii "EX", decText s]
  | .mset kvs => ascii "MSET" :: kvs.flatMap (fun kv => [kv.1, kv.2])
  | .exist k => [ascii "EXISTS", k]
  | .delete k => [ascii "DEL", k]
  | .incr k => [ascii "INCR", k]
  | .incrBy k n => [ascii "INCRBY", k, decText n]
  | .decr k => [ascii "DECR", k]
  | .decrBy k n => [ascii "DECRBY", k, decText n]
  | .select db => [ascii "SELECT", db]
  | .auth p => [ascii "AUTH", p]
  | .ttl k => [ascii "TTL", k]
  | .persist k => [ascii "PERSIST", k]
  | .expire k s => [ascii "EXPIRE", k, decText s]
  | .ping => [ascii "PING"]

/-- A command on the wire is an array of bulk strings. -/
def command (ws : List Bytes) : Val := .arr (ws.map .bulk)

/-- Sizes that fit the 32-bit length fields of the encoder. -/
def Fits (ws : List Bytes) : Prop := ws.length < 2 ^ 32 ∧ ∀ w ∈ ws, w.length < 2 ^ 32

theorem appendBack_flatten (bufs : List Bytes) (h : bufs ≠ []) (x : Bytes) :
    (appendBack bufs x).flatten = bufs.flatten ++ x ∧ appendBack bufs x ≠ [] := by
  induction bufs with
  | nil => exact absurd rfl h
  | cons b bs ih =>
    cases bs with
    | nil => simp [appendBack]
    | cons c cs =>
      have := ih (by simp)
      simp only [appendBack, List.flatten_cons, this.1, List.append_assoc]
      simp

theorem appendSize_flatten (bufs : List Bytes) (ty : UInt8) (n : Nat) (h : n < 2 ^ 32) :
    (appendSize bufs ty n).flatten = bufs.flatten ++ ty :: (decText n ++ crlf) ∧
      appendSize bufs ty n ≠ [] := by
  unfold appendSize
  rw [Nat.mod_eq_of_lt h]
  cases bufs with
  | nil =>
    have := appendBack_flatten [[]] (by simp) (ty :: (decText n ++ crlf))
    simpa using this
  | cons b bs => exact appendBack_flatten (b :: bs) (by simp) _

theorem append_flatten (bufs : List Bytes) (arg : Bytes) (h : arg.length < 2 ^ 32) :
    (append bufs arg).flatten = bufs.flatten ++ enc (.bulk arg) ∧ append bufs arg ≠ [] := by
  have h1 := appendSize_flatten bufs 36 arg.length h
  unfold append
  split
  · constructor
    · rw [List.flatten_append, List.flatten_append, h1.1, enc]
      simp
    · simp
  · have h2 := appendBack_flatten _ h1.2 arg
    have h3 := appendBack_flatten _ h2.2 crlf
    refine ⟨?_, h3.2⟩
    rw [h3.1, h2.1, h1.1, enc]
    simp

theorem foldl_append_flatten (args : List Bytes) : ∀ (bufs : List Bytes),
    (∀ w ∈ args, w.length < 2 ^ 32) →
    (args.foldl append bufs).flatten = bufs.flatten ++ encs (args.map .bulk) := by
  induction args with
  | nil => intro bufs _; simp [encs]
  | cons a as ih =>
    intro bufs h
    rw [List.foldl_cons, ih _ (fun w hw => h w (List.mem_cons_of_mem _ hw)),
      (append_flatten bufs a (h a List.mem_cons_self)).1, List.map_cons, encs, List.append_assoc]

theorem encodeCmd_flatten (cmd : Bytes) (args : List Bytes) (h : Fits (cmd :: args)) :
    (encodeCmd cmd args).flatten = enc (command (cmd :: args)) := by
  have hl : args.length + 1 < 2 ^ 32 := h.1
  unfold encodeCmd
  rw [foldl_append_flatten args _ (fun w hw => h.2 w (List.mem_cons_of_mem _ hw)),
    (append_flatten _ cmd (h.2 cmd List.mem_cons_self)).1, (appendSize_flatten [] 42 _ hl).1]
  simp [command, enc, encs]

theorem foldl_kvs (kvs : List (Bytes × Bytes)) : ∀ acc : List Bytes,
    kvs.foldl (fun acc kv => acc ++ [kv.1] ++ [kv.2]) acc
      = acc ++ kvs.flatMap (fun kv => [kv.1, kv.2]) := by
  induction kvs with
  | nil => intro acc; simp
  | cons kv kvs ih => intro acc; rw [List.foldl_cons, ih]; simp

theorem call_eq (r : Request) (c : Call) (h : Fits (words c)) :
    r.call c = ⟨r.body ++ enc (command (words c)), (r.count + 1) % 2 ^ 32⟩ := by
  cases c <;> simp only [words] at h ⊢ <;> simp only [Request.call, Request.add]
  case mset kvs => rw [foldl_kvs, List.nil_append, encodeCmd_flatten _ _ h]
  all_goals rw [encodeCmd_flatten _ _ h]

/-- **C47.**  Whatever sequence of commands is put into a request, its wire form is exactly those
commands, one after the other, each an array of bulk strings with exactly the words of the command
and arguments given (any bytes), and the request counts exactly as many commands. -/
theorem c47_request_encoding (cs : List Call) (hf : ∀ c ∈ cs, Fits (words c))
    (hn : cs.length < 2 ^ 32) :
    cs.foldl Request.call Request.empty =
      ⟨encs (cs.map (fun c => command (words c))), cs.length⟩ := by
  have key : ∀ (cs : List Call) (r : Request), (∀ c ∈ cs, Fits (words c)) →
      r.count + cs.length < 2 ^ 32 → cs.foldl Request.call r =
        ⟨r.body ++ encs (cs.map (fun c => command (words c))), r.count + cs.length⟩ := by
    intro cs
    induction cs with
    | nil => intro r _ _; simp [encs]
    | cons c cs ih =>
      intro r hf hn
      simp only [List.length_cons] at hn
      rw [List.foldl_cons, call_eq r c (hf c List.mem_cons_self),
        Nat.mod_eq_of_lt (by omega : r.count + 1 < 2 ^ 32),
        ih _ (fun x hx => hf x (List.mem_cons_of_mem _ hx)) (by simp only; omega)]
      simp only [List.map_cons, encs, List.append_assoc, List.length_cons]
      congr 1
      omega
  have := key cs Request.empty hf (by simpa [Request.empty] using hn)
  rw [this]
  simp [Request.empty]

theorem wf_command (ws : List Bytes) (h : Fits ws) : Wf (command ws) := by
  rw [command, Wf]
  have h1 := h.1
  refine ⟨by rw [List.length_map]; omega, ?_⟩
  have : ∀ (l : List Bytes), (∀ w ∈ l, w.length < 2 ^ 32) → Wfs (l.map Val.bulk) := by
    intro l
    induction l with
    | nil => intro _; trivial
    | cons a as ih =>
      intro h
      rw [List.map_cons, Wfs]
      refine ⟨?_, ih (fun w hw => h w (List.mem_cons_of_mem _ hw))⟩
      rw [Wf]
      have := h a List.mem_cons_self
      omega
  exact this ws h.2

/-- **C47, read back.**  A RESP reader of the request sees exactly the commands, and nothing else. -/
theorem c47_request_roundtrip (cs : List Call) (hf : ∀ c ∈ cs, Fits (words c)) :
    ∃ b', Parses Dec.init (cs.foldl Request.call Request.empty).body
      (cs.map (fun c => command (words c))) [] ⟨⟨.start, b'⟩, []⟩ := by
  have hwf : Wfs (cs.map (fun c => command (words c))) := by
    induction cs with
    | nil => trivial
    | cons c cs ih =>
      rw [List.map_cons, Wfs]
      exact ⟨wf_command _ (hf c List.mem_cons_self),
        ih (fun x hx => hf x (List.mem_cons_of_mem _ hx))⟩
  have key : ∀ (cs : List Call) (r : Request), (∀ c ∈ cs, Fits (words c)) →
      (cs.foldl Request.call r).body = r.body ++ encs (cs.map (fun c => command (words c))) := by
    intro cs
    induction cs with
    | nil => intro r _; simp [encs]
    | cons c cs ih =>
      intro r hf
      rw [List.foldl_cons, ih _ (fun x hx => hf x (List.mem_cons_of_mem _ hx)),
        call_eq r c (hf c List.mem_cons_self)]
      simp only [List.map_cons, encs, List.append_assoc]
  obtain ⟨b', h⟩ := parses_encs _ hwf [] []
  rw [key cs Request.empty hf]
  refine ⟨b', ?_⟩
  rw [List.append_nil] at h
  simpa [Request.empty, Dec.init] using h

/-- **C47, equivocation.**  Two requests with the same wire bytes carry the same commands. -/
theorem c47_injective (cs ds : List Call) (hc : ∀ c ∈ cs, Fits (words c))
    (hd : ∀ c ∈ ds, Fits (words c))
    (h : (cs.foldl Request.call Request.empty).body = (ds.foldl Request.call Request.empty).body) :
    cs.map words = ds.map words := by
  obtain ⟨b1, h1⟩ := c47_request_roundtrip cs hc
  obtain ⟨b2, h2⟩ := c47_request_roundtrip ds hd
  rw [h] at h1
  have det : ∀ (vs ws : List Val) (d : Dec) (W : Bytes) (e1 e2 : Dec), d.Good →
      Parses d W vs [] e1 → Parses d W ws [] e2 → vs = ws := by
    intro vs
    induction vs with
    | nil =>
      intro ws d W e1 e2 hg p1 p2
      cases p1
      cases p2 with
      | nil => rfl
      | cons g _ =>
        obtain ⟨d', hd'⟩ := decode_nil_inc d hg
        rw [hd'] at g
        simp at g
    | cons v vs ih =>
      intro ws d W e1 e2 hg p1 p2
      cases p1 with
      | cons g1 q1 =>
        cases p2 with
        | nil =>
          obtain ⟨d', hd'⟩ := decode_nil_inc d hg
          rw [hd'] at g1
          simp at g1
        | cons g2 q2 =>
          rw [g1] at g2
          injection g2 with a b c
          subst a b c
          rw [ih _ _ _ _ _ (good_of_ok hg g1).1 q1 q2]
  have hm := det _ _ _ _ _ _ (by intro f hf; simp [Dec.init] at hf) h1 h2
  have inj : ∀ (a b : List Bytes), command a = command b → a = b := by
    intro a b hab
    injection hab with hab
    exact List.map_injective_iff.2 (fun x y hxy => by injection hxy) hab
  have hinj : Function.Injective command := fun a b hab => inj a b hab
  have e : ∀ l : List Call, l.map (fun c => command (words c)) = (l.map words).map command := by
    intro l; simp [List.map_map, Function.comp_def]
  rw [e, e] at hm
  exact List.map_injective_iff.2 hinj hm

/-- **Violated: a heartbeat request is not recognised as one.**  `IsHeartbeat` compares the encoded
body with the bare word, so it is false for every request the API can build. -/
theorem c47_violation_heartbeat (r : Request) : r.asHeartbeat.isHeartbeat = false := by
  have : ∀ r : Request, r.asHeartbeat = Request.empty.call .ping := fun _ => rfl
  rw [this, call_eq _ _ (by constructor <;> simp [words, ascii])]
  simp only [Request.isHeartbeat, Request.empty, List.nil_append, command, enc, words]
  rfl

example : ∀ c ∈ [Call.set [0, 255, 13, 10] [], Call.mget [[1], [2], []]], Fits (words c) := by
  intro c hc
  simp only [List.mem_cons, List.not_mem_nil, or_false] at hc
  rcases hc with rfl | rfl <;> constructor <;> simp [words, ascii]

end Ltio.Redis.Encode
