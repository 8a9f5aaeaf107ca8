import Verif.Text.Split
import Verif.Url.Model
import Mathlib.Data.List.Sort
import Mathlib.Data.List.Nodup

/-
Model of components/inverted_indexer: documents with one condition per field, their posting lists as
bitmaps, and queries by merging (C54).

`none` is a failed CHECK or a null pointer followed: the process dies.  Diagnostics printed by the query
(`std::cout << ...`) are not modelled, but the calls that compute them are, because those calls can die.
-/
namespace Ltio.Inv
open Ltio.Text

/-! ### posting_field/bitmap_posting_list.{h,cc} -/

/-- `BitMapPostingList` (bitmap_posting_list.h:35-37). -/
structure Bitmap where
  idCount : Nat
  bitCount : Nat
  words : List (BitVec 64)

/-- The constructor (bitmap_posting_list.h:17-20). -/
def Bitmap.new (bits ids : Nat) (v : BitVec 64) : Bitmap := ⟨ids, bits, List.replicate ((bits + 63) / 64) v⟩

/-- `ResetBits` (bitmap_posting_list.cc:5-7). -/
def Bitmap.reset (b : Bitmap) : Bitmap := { b with words := b.words.map (fun _ => 0#64) }

/-- `SetBit` (bitmap_posting_list.cc:9-14). -/
def Bitmap.setBit (b : Bitmap) (i : Nat) : Option Bitmap :=
  if i < b.words.length * 64 then
    some { b with words := b.words.set (i / 64) (b.words.getD (i / 64) 0#64 ||| (1#64 <<< (63 - i % 64))) }
  else none

/-- `ClearBit` (bitmap_posting_list.cc:16-21). -/
def Bitmap.clearBit (b : Bitmap) (i : Nat) : Option Bitmap :=
  if i < b.words.length * 64 then
    some { b with words := b.words.set (i / 64) (b.words.getD (i / 64) 0#64 &&& ~~~(1#64 <<< (63 - i % 64))) }
  else none

/-- `IsBitSet` (bitmap_posting_list.cc:23-26). -/
def Bitmap.isBitSet (b : Bitmap) (i : Nat) : Option Bool :=
  if i < b.words.length * 64 then
    some ((b.words.getD (i / 64) 0#64 &&& (1#64 <<< (63 - i % 64))) != 0#64)
  else none

/-- The loops `for (; i < a.size() && i < b.size(); i++) a[i] = f(a[i], b[i])`. -/
def zipPre (f : BitVec 64 → BitVec 64 → BitVec 64) : List (BitVec 64) → List (BitVec 64) → List (BitVec 64)
  | [], _ => []
  | x :: xs, [] => x :: xs
  | x :: xs, y :: ys => f x y :: zipPre f xs ys

/-- `Union` (bitmap_posting_list.cc:28-33); the argument is not null. -/
def Bitmap.union (a b : Bitmap) : Bitmap := { a with words := zipPre (· ||| ·) a.words b.words }

/-- `memset(p, 0, n)` on little-endian words. -/
def clearBytes : Nat → List (BitVec 64) → List (BitVec 64)
  | _, [] => []
  | n, w :: ws => (if 8 ≤ n then 0#64 else (w >>> (8 * n)) <<< (8 * n)) :: clearBytes (n - 8) ws

/-- `Intersect` (bitmap_posting_list.cc:35-43): the rest is cleared by `memset(&a[i], 0, size - i)`, which
counts bytes, not words. -/
def Bitmap.intersect (a b : Bitmap) : Bitmap :=
  { a with words :=
      (zipPre (· &&& ·) a.words b.words).take b.words.length ++
        clearBytes (a.words.length - b.words.length) (a.words.drop b.words.length) }

/-- `Substract` (bitmap_posting_list.cc:45-50). -/
def Bitmap.substract (a b : Bitmap) : Bitmap := { a with words := zipPre (fun x y => x &&& ~~~y) a.words b.words }

/-! ### expression.h, field.{h,cc}, indexer.cc: documents and their conditions -/

/-- `Expression` (expression.h:31-48). -/
structure Expr where
  exclude : Bool
  values : List Str

/-- `Document` (expression.h:52-65): the conditions, by field (`AddExpression` keeps the first for a
field, expression.cc:36-38). -/
structure Doc where
  id : Int
  conds : List (Str × Expr)

/-- `IdList` (expression.h:18) is a `std::set`: ordered, without repetition. -/
def insId (a : Int) : List Int → List Int
  | [] => [a]
  | x :: xs => if a < x then a :: x :: xs else if a = x then x :: xs else x :: insId a xs

/-- `FieldEntity` (field.h:53-60). -/
structure Entity where
  wild : List Int
  inc : List (Str × List Int)
  exc : List (Str × List Int)

/-- `map[assign].insert(id)`. -/
def addTo (id : Int) (v : Str) : List (Str × List Int) → List (Str × List Int)
  | [] => [(v, [id])]
  | (w, ids) :: r => if v = w then (w, insId id ids) :: r else (w, ids) :: addTo id v r

/-- `FieldEntity::AddIdForAssign` (field.cc:10-14). -/
def Entity.addAssign (e : Entity) (exclude : Bool) (id : Int) (v : Str) : Entity :=
  if exclude then { e with exc := addTo id v e.exc } else { e with inc := addTo id v e.inc }

/-- What `AddDocument` (indexer.cc:97-118) does to one registered field. -/
def Entity.addDoc (f : Str) (e : Entity) (d : Doc) : Entity :=
  match d.conds.lookup f with
  | none => { e with wild := insId d.id e.wild }
  | some x =>
    if x.values = [] then { e with wild := insId d.id e.wild }
    else if x.exclude then
      { x.values.foldl (fun e v => e.addAssign true d.id v) e with wild := insId d.id e.wild }
    else x.values.foldl (fun e v => e.addAssign false d.id v) e

/-- The entity of a field after all documents were added. -/
def entityOf (docs : List Doc) (f : Str) : Entity := docs.foldl (Entity.addDoc f) ⟨[], [], []⟩

/-- `all_documens_ids_` (indexer.h:19): a `std::set`. -/
def allIds (docs : List Doc) : List Int := docs.foldl (fun s d => insId d.id s) []

/-! ### posting_list_manager.cc -/

/-- `PostingListManager` (posting_list_manager.h:27-33); `doc_id_to_bit_idx_` is the position in
`sorted_doc_ids_`. -/
structure Mgr where
  sorted : List Int
  table : List (Nat × Bitmap)

/-- Setting the bits of a list of positions. -/
def setAll (b : Bitmap) : List Nat → Option Bitmap
  | [] => some b
  | i :: is => (b.setBit i).bind (fun b' => setAll b' is)

/-- A new bitmap for ids (posting_list_manager.cc:37-46); every id must be indexed. -/
def bitmapFor (sorted ids : List Int) : Option Bitmap :=
  if ∀ id ∈ ids, id ∈ sorted then
    setAll (Bitmap.new (sorted.idxOf (ids.getLastD 0) + 1) ids.length 0#64) (ids.map sorted.idxOf)
  else none

/-- `BuildBitMapPostingListForIds` (posting_list_manager.cc:20-52); `crc` is `crc64` of the ids. -/
def Mgr.build (crc : List Int → Nat) (m : Mgr) (ids : List Int) : Option (Mgr × Option Bitmap) :=
  if ids = [] then some (m, none)
  else match m.table.lookup (crc ids) with
    | some b => if b.idCount = ids.length then some (m, some b) else none
    | none => (bitmapFor m.sorted ids).map (fun b => ({ m with table := (crc ids, b) :: m.table }, some b))

/-- The ids of the set bits among some positions. -/
def collect (sorted : List Int) (b : Bitmap) : List Nat → Option (List Int)
  | [] => some []
  | i :: is =>
    (b.isBitSet i).bind (fun v => (collect sorted b is).map (fun r =>
      if v then (match sorted[i]? with | some id => id :: r | none => r) else r))

/-- `GetIdsFromPostingList` (posting_list_manager.cc:64-78): `i <= BitCount()`. -/
def getIds (sorted : List Int) : Option Bitmap → Option (List Int)
  | none => some []
  | some b => collect sorted b (List.range (b.bitCount + 1))

/-! ### indexer.cc: BuildIndexer -/

/-- `Field` with `GeneralStrField` (field.h:34, general_str_field.h:25-26). -/
structure FieldPl where
  wild : Option Bitmap
  inc : List (Str × Bitmap)
  exc : List (Str × Bitmap)

/-- One of the two loops of `BuildIndexer` over the assigns (indexer.cc:152-160, 162-170). -/
def buildAll (crc : List Int → Nat) (m : Mgr) : List (Str × List Int) → Option (Mgr × List (Str × Bitmap))
  | [] => some (m, [])
  | (v, ids) :: r =>
    if ids = [] then buildAll crc m r
    else (m.build crc ids).bind (fun mb =>
      match mb.2 with
      | none => none
      | some b => (buildAll crc mb.1 r).map (fun mr => (mr.1, (v, b) :: mr.2)))

/-- The order in which an `unordered_map` is traversed: any. -/
structure Order where
  ord : List (Str × List Int) → List (Str × List Int)
  perm : ∀ l, (ord l).Perm l

/-- One field of `BuildIndexer` (indexer.cc:145-170). -/
def buildField (crc : List Int → Nat) (o : Order) (m : Mgr) (e : Entity) : Option (Mgr × FieldPl) :=
  (m.build crc e.wild).bind (fun mw =>
    (buildAll crc mw.1 (o.ord e.inc)).bind (fun mi =>
      (buildAll crc mi.1 (o.ord e.exc)).map (fun mx => (mx.1, ⟨mw.2, mi.2, mx.2⟩))))

/-- The fields of `BuildIndexer`. -/
def buildFields (crc : List Int → Nat) (o : Order) (docs : List Doc) (m : Mgr) :
    List Str → Option (Mgr × List (Str × FieldPl))
  | [] => some (m, [])
  | f :: fs => (buildField crc o m (entityOf docs f)).bind (fun mf =>
      (buildFields crc o docs mf.1 fs).map (fun mr => (mr.1, (f, mf.2) :: mr.2)))

/-- `AddDocument` for every document, then `BuildIndexer` (indexer.cc:132-174), with the general string
field for every registered field. -/
def buildIndexer (crc : List Int → Nat) (o : Order) (docs : List Doc) (fields : List Str) :
    Option (Mgr × List (Str × FieldPl)) :=
  buildFields crc o docs ⟨allIds docs, []⟩ fields

/-! ### indexer.cc: UnifyQuery, bitmap_merger.cc -/

/-- Union with a list of bitmaps, in any order (a `std::set` of pointers). -/
def unionAll (g : Bitmap) (l : List Bitmap) : Bitmap := l.foldl Bitmap.union g

/-- Substraction of a list of bitmaps. -/
def substractAll (g : Bitmap) (l : List Bitmap) : Bitmap := l.foldl Bitmap.substract g

/-- `CalculateMergerGroup` (bitmap_merger.cc:18-41) with one wildcard list, which must not be null; the
three conversions for diagnostics must succeed. -/
def calculate (sorted : List Int) (res grp : Bitmap) (incs excs : List Bitmap) : Option Bitmap → Option (Bitmap × Bitmap)
  | none => none
  | some w =>
    (getIds sorted (some (unionAll grp.reset incs))).bind (fun _ =>
      (getIds sorted (some ((unionAll grp.reset incs).union w))).bind (fun _ =>
        (getIds sorted (some (substractAll ((unionAll grp.reset incs).union w) excs))).map (fun _ =>
          (res.intersect (substractAll ((unionAll grp.reset incs).union w) excs),
            substractAll ((unionAll grp.reset incs).union w) excs))))

/-- The diagnostics for a list of posting lists (indexer.cc:38-42, 46-50). -/
def dumpAll (sorted : List Int) : List Bitmap → Option Unit
  | [] => some ()
  | b :: bs => (getIds sorted (some b)).bind (fun _ => dumpAll sorted bs)

/-- The lists found for the query values (indexer.cc:36-52; general_str_field.cc:25-43). -/
def found (l : List (Str × Bitmap)) (vs : List Str) : List Bitmap := vs.filterMap (fun v => l.lookup v)

/-- One field of `UnifyQuery` (indexer.cc:21-64). -/
def queryField (sorted : List Int) (q : List (Str × List Str)) (res grp : Bitmap) (f : Str) (p : FieldPl) :
    Option (Bitmap × Bitmap) :=
  match q.lookup f with
  | none => (calculate sorted res grp [] [] p.wild).bind (fun r => (getIds sorted (some r.1)).map (fun _ => r))
  | some vs =>
    (dumpAll sorted (found p.inc vs)).bind (fun _ =>
      (dumpAll sorted (found p.exc vs)).bind (fun _ =>
        (getIds sorted p.wild).bind (fun _ =>
          (calculate sorted res grp (found p.inc vs) (found p.exc vs) p.wild).bind (fun r =>
            (getIds sorted (some r.1)).map (fun _ => r)))))

/-- The loop of `UnifyQuery` over the fields. -/
def queryFields (sorted : List Int) (q : List (Str × List Str)) (res grp : Bitmap) :
    List (Str × FieldPl) → Option Bitmap
  | [] => some res
  | (f, p) :: r => (queryField sorted q res grp f p).bind (fun rg => queryFields sorted q rg.1 rg.2 r)

/-- `UnifyQuery` (indexer.cc:13-67), with `StartMerger` (bitmap_merger.cc:9-12) and
`CreateMergePostingList` (posting_list_manager.cc:14-18). -/
def unifyQuery (sorted : List Int) (tbl : List (Str × FieldPl)) (q : List (Str × List Str)) : Option (List Int) :=
  (getIds sorted (some (Bitmap.new sorted.length 0 (BitVec.allOnes 64)))).bind (fun _ =>
    (queryFields sorted q (Bitmap.new sorted.length 0 (BitVec.allOnes 64))
      (Bitmap.new sorted.length 0 (BitVec.allOnes 64)) tbl).bind (fun r => getIds sorted (some r)))

/-- Documents added, index built, one query; `o` and `perm` are the traversal orders of the
`unordered_map`s. -/
def indexAndQuery (crc : List Int → Nat) (o : Order) (perm : List (Str × FieldPl) → List (Str × FieldPl))
    (docs : List Doc) (fields : List Str) (q : List (Str × List Str)) : Option (List Int) :=
  (buildIndexer crc o docs fields).bind (fun mt => unifyQuery mt.1.sorted (perm mt.2) q)

/-! ### Specification -/

/-- Does a document's condition on a field accept the query's values for it (`none`: the query does not
mention the field)? -/
def Accepts (c : Option Expr) (qv : Option (List Str)) : Prop :=
  match c with
  | none => True
  | some x =>
    if x.values = [] then True
    else if x.exclude then ∀ vs, qv = some vs → ∀ v ∈ vs, v ∉ x.values
    else ∃ vs, qv = some vs ∧ ∃ v ∈ vs, v ∈ x.values

/-- A document matches a query: every registered field accepts. -/
def Matches (fields : List Str) (q : List (Str × List Str)) (d : Doc) : Prop :=
  ∀ f ∈ fields, Accepts (d.conds.lookup f) (q.lookup f)

end Ltio.Inv
