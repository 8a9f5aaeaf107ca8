import Verif.BoolIndex.Index
import Mathlib.Data.List.Perm.Basic
import Mathlib.Data.List.Nodup
/-
components/boolean_indexer/document.cc and document.h: how a user builds conjunctions and documents, and who owns the
conjunctions.  Release build: the `assert` of line 36 is gone (a debug build aborts there).
-/
namespace Ltio.BoolIndex.Build

/-- `Conjunction` (document.h:66-101): `assigns_`, `size_`, `con_id_`.  The map's order by name does not matter (see Index.lean). -/
structure Built where
  assigns : List Expr := []
  size : Nat := 0
  cid : Nat := 0
deriving Repr, DecidableEq

/-- `Conjunction::AddExpression` (document.cc:33-38): `insert` keeps an expression that is there. -/
def Built.add (c : Built) (e : Expr) : Built :=
  { c with assigns := if e.field ∈ c.assigns.map Expr.field then c.assigns else c.assigns ++ [e],
           size := c.size + (if e.exclude = true then 0 else 1) }

/-- `AddExpression(exprs)`, and chains of `Include` and `Exclude` (document.cc:40-58). -/
def Built.addAll (c : Built) (es : List Expr) : Built := es.foldl Built.add c

/-- A document being built. -/
structure BDoc where
  id : Int
  conjs : List Built := []

/-- `Document::AddConjunction` (document.cc:81-88). -/
def BDoc.add (d : BDoc) (c : Built) : BDoc :=
  { d with conjs := d.conjs ++ [{ c with cid := genConjID d.id d.conjs.length c.size }] }

/-- A user builds conjunctions from lists of expressions and adds them one by one. -/
def build (id : Int) (cs : List (List Expr)) : BDoc := (cs.map (Built.addAll {})).foldl BDoc.add { id }

/-- What `BeIndexerBuilder::AddDocument` pushes for a document (be_indexer_builder.cc:34-61). -/
def BDoc.log (H : String → Int) (d : BDoc) : List ((String × Int) × Nat) :=
  d.conjs.flatMap (fun c => c.assigns.flatMap (exprLog H c.cid))

/-- The wildcard entries (be_indexer_builder.cc:37-39). -/
def BDoc.wild (d : BDoc) : List Nat := d.conjs.filterMap (fun c => if c.size = 0 then some (genEntryID c.cid false) else none)

/-! ### Building -/

theorem addAll_fresh (es : List Expr) (c : Built) (h1 : (es.map Expr.field).Nodup) (h2 : ∀ e ∈ es, e.field ∉ c.assigns.map Expr.field) :
    c.addAll es = { c with assigns := c.assigns ++ es, size := c.size + Conj.size es } := by
  induction es generalizing c with
  | nil => simp [Built.addAll, Conj.size]
  | cons e t ih =>
    simp only [List.map_cons, List.nodup_cons] at h1
    have hstep : c.add e = { c with assigns := c.assigns ++ [e], size := c.size + (if e.exclude = true then 0 else 1) } := by
      unfold Built.add
      rw [if_neg (h2 e (by simp))]
    show (c.add e).addAll t = _
    rw [ih _ h1.2, hstep]
    · simp only [List.append_assoc, List.singleton_append, Built.mk.injEq, true_and, and_true]
      unfold Conj.size
      rw [List.countP_cons]
      cases e.exclude <;> simp <;> omega
    · intro x hx
      rw [hstep]
      simp only [List.map_append, List.map_cons, List.map_nil, List.mem_append, List.mem_singleton, not_or]
      exact ⟨h2 x (by simp [hx]), fun he => h1.1 (he ▸ List.mem_map_of_mem (f := Expr.field) hx)⟩

/-- **C154.** A conjunction built from expressions on different fields consists of exactly these, and its size is the number of
those that include. -/
theorem c154_conj (es : List Expr) (h : (es.map Expr.field).Nodup) :
    (Built.addAll {} es).assigns = es ∧ (Built.addAll {} es).size = es.countP (fun e => !e.exclude) := by
  rw [addAll_fresh es {} h (by simp)]
  simp [Conj.size]

theorem foldl_add (cs : List Built) (d : BDoc) : (cs.foldl BDoc.add d).id = d.id ∧
    (cs.foldl BDoc.add d).conjs = d.conjs ++ (cs.zipIdx d.conjs.length).map (fun ci => { ci.1 with cid := genConjID d.id ci.2 ci.1.size }) := by
  induction cs generalizing d with
  | nil => simp
  | cons c t ih =>
    obtain ⟨h1, h2⟩ := ih (d.add c)
    refine ⟨h1, ?_⟩
    show ((t.foldl BDoc.add (d.add c)).conjs) = _
    rw [h2]
    simp [BDoc.add, List.zipIdx_cons]

/-- **C154.** Conjunction `i` of a document carries the id made of the document's id, `i` and its number of including
expressions, and its expressions. -/
theorem c154_doc (id : Int) (cs : List (List Expr)) (h : ∀ es ∈ cs, (es.map Expr.field).Nodup) :
    (build id cs).id = id ∧ (build id cs).conjs = cs.zipIdx.map (fun ci => ⟨ci.1, Conj.size ci.1, conjId ⟨id, cs⟩ ci.2 ci.1⟩) := by
  obtain ⟨h1, h2⟩ := foldl_add (cs.map (Built.addAll {})) { id }
  refine ⟨h1, ?_⟩
  unfold build
  rw [h2]
  simp only [List.nil_append, List.length_nil]
  rw [List.zipIdx_map, List.map_map]
  apply List.map_congr_left
  intro ci hci
  have hm : ci.1 ∈ cs := by
    obtain ⟨x, i⟩ := ci
    exact (List.mem_zipIdx_iff_getElem? .. |>.1 hci) |> fun h => List.mem_of_getElem? h
  have := addAll_fresh ci.1 {} (h _ hm) (by simp)
  simp only [Function.comp, Prod.map, this, List.nil_append, Nat.zero_add, conjId, _root_.id]

/-- **C154.** So the entries the index gets are those of the documents of C14. -/
theorem c154_log (H : String → Int) (id : Int) (cs : List (List Expr)) (h : ∀ es ∈ cs, (es.map Expr.field).Nodup) :
    (build id cs).log H = docLog H ⟨id, cs⟩ ∧ (build id cs).wild = wildLog [⟨id, cs⟩] := by
  have := (c154_doc id cs h).2
  constructor
  · simp only [BDoc.log, docLog, this, List.flatMap_map]
  · simp only [BDoc.wild, wildLog, this, List.filterMap_map, List.flatMap_cons, List.flatMap_nil, List.append_nil]
    rfl

/-! ### Ownership -/

/-- The documents alive (number, pointers), the conjunctions deleted. -/
structure Heap where
  docs : List (Nat × List Nat) := []
  deleted : List Nat := []
deriving Repr, DecidableEq

inductive Op where
  /-- a new document -/
  | new (d : Nat)
  /-- `AddConjunction` -/
  | add (d c : Nat)
  /-- `Document(Document&&)` into a new document `e` (document.h:107-108) -/
  | moveNew (d e : Nat)
  /-- `e = std::move(d)` (document.h:123-133) -/
  | moveAssign (d e : Nat)
  /-- `e = d` (document.h:116-121) -/
  | copyAssign (d e : Nat)
  /-- `~Document` (document.cc:74-79) -/
  | destroy (d : Nat)
deriving Repr, DecidableEq

def Heap.get (h : Heap) (d : Nat) : Option (List Nat) := (h.docs.find? (fun x => x.1 == d)).map Prod.snd

def Heap.set (h : Heap) (d : Nat) (v : List Nat) : Heap :=
  { h with docs := h.docs.map (fun x => if x.1 = d then (d, v) else x) }

def Heap.step (h : Heap) : Op → Option Heap
  | .new d => if (h.get d).isSome then none else some { h with docs := h.docs ++ [(d, [])] }
  | .add d c => match h.get d with
    | none => none
    | some v => some (h.set d (v ++ [c]))
  | .moveNew d e => match h.get d, h.get e with
    | some v, none => some { (h.set d []) with docs := (h.set d []).docs ++ [(e, v)] }
    | _, _ => none
  | .moveAssign d e => match h.get d, h.get e with
    | some v, some _ => if d = e then some h else some ((h.set e v).set d [])
    | _, _ => none
  | .copyAssign d e => match h.get d, h.get e with
    | some v, some _ => if d = e then some h else some (h.set e v)
    | _, _ => none
  | .destroy d => match h.get d with
    | none => none
    | some v => some { docs := h.docs.filter (fun x => x.1 ≠ d), deleted := h.deleted ++ v }

def Heap.run (h : Heap) : List Op → Option Heap
  | [] => some h
  | o :: t => match h.step o with
    | none => none
    | some h' => h'.run t

/-- The conjunctions added in a history. -/
def added : List Op → List Nat
  | [] => []
  | .add _ c :: t => c :: added t
  | _ :: t => added t

/-- Histories without assignments of documents. -/
def NoAssign (h : List Op) : Prop := ∀ o ∈ h, (∀ d e, o ≠ .moveAssign d e) ∧ ∀ d e, o ≠ .copyAssign d e

theorem get_split {h : Heap} {d : Nat} {v : List Nat} (hg : h.get d = some v) :
    ∃ a b, h.docs = a ++ (d, v) :: b ∧ ∀ x ∈ a, x.1 ≠ d := by
  unfold Heap.get at hg
  generalize h.docs = l at hg
  induction l with
  | nil => simp at hg
  | cons x t ih =>
    rw [List.find?_cons] at hg
    by_cases hx : x.1 = d
    · have e1 : (x.1 == d) = true := by simpa using hx
      rw [e1] at hg
      simp only [Option.map_some, Option.some.injEq] at hg
      exact ⟨[], t, by rw [← hg, ← hx]; simp, by simp⟩
    · have e1 : (x.1 == d) = false := by simpa using hx
      rw [e1] at hg
      obtain ⟨a, b, h1, h2⟩ := ih hg
      refine ⟨x :: a, b, by rw [h1]; rfl, ?_⟩
      intro y hy
      rcases List.mem_cons.1 hy with rfl | hy
      · exact hx
      · exact h2 y hy

theorem get_none {h : Heap} {d : Nat} (hg : h.get d = none) : d ∉ h.docs.map Prod.fst := by
  unfold Heap.get at hg
  simp only [Option.map_eq_none_iff, List.find?_eq_none] at hg
  intro hm
  obtain ⟨x, hx, rfl⟩ := List.mem_map.1 hm
  exact hg x hx (by simp)

theorem set_other (a : List (Nat × List Nat)) (d : Nat) (v : List Nat) (h : d ∉ a.map Prod.fst) :
    a.map (fun x => if x.1 = d then (d, v) else x) = a := by
  induction a with
  | nil => rfl
  | cons x t ih =>
    simp only [List.map_cons, List.mem_cons, not_or] at h
    rw [List.map_cons, ih h.2, if_neg (Ne.symm h.1)]

theorem filter_other (a : List (Nat × List Nat)) (d : Nat) (h : d ∉ a.map Prod.fst) : a.filter (fun x => x.1 ≠ d) = a := by
  rw [List.filter_eq_self]
  intro x hx
  simp only [ne_eq, decide_not, Bool.not_eq_eq_eq_not, Bool.not_true, decide_eq_false_iff_not]
  intro he
  exact h (he ▸ List.mem_map_of_mem (f := Prod.fst) hx)

/-- The conjunctions a heap knows of. -/
def Heap.all (h : Heap) : List Nat := h.docs.flatMap Prod.snd ++ h.deleted

structure HInv (h : Heap) (c : List Nat) : Prop where
  names : (h.docs.map Prod.fst).Nodup
  all : h.all.Perm c

theorem hinv_step {h h' : Heap} {c : List Nat} {o : Op} (hi : HInv h c) (h1 : ∀ d e, o ≠ .moveAssign d e) (h2 : ∀ d e, o ≠ .copyAssign d e)
    (hs : h.step o = some h') : HInv h' (c ++ added [o]) := by
  obtain ⟨hn, ha⟩ := hi
  have parts : ∀ {d : Nat} {v : List Nat}, h.get d = some v → ∃ a b, h.docs = a ++ (d, v) :: b ∧ d ∉ a.map Prod.fst ∧ d ∉ b.map Prod.fst := by
    intro d v hg
    obtain ⟨a, b, e1, e2⟩ := get_split hg
    rw [e1] at hn
    simp only [List.map_append, List.map_cons, List.nodup_append, List.nodup_cons] at hn
    refine ⟨a, b, e1, ?_, hn.2.1.1⟩
    intro hm
    obtain ⟨x, hx, he⟩ := List.mem_map.1 hm
    exact e2 x hx he
  cases o with
  | new d =>
    simp only [Heap.step] at hs
    split at hs
    · simp at hs
    · rename_i hg
      simp only [Option.some.injEq] at hs; subst hs
      have hg' : h.get d = none := by simpa using hg
      refine ⟨?_, ?_⟩
      · simp only [List.map_append, List.map_cons, List.map_nil]
        rw [List.nodup_append]
        refine ⟨hn, by simp, ?_⟩
        intro x hx y hy
        rw [List.mem_singleton] at hy
        subst hy
        intro he
        exact get_none hg' (he ▸ hx)
      · simpa [Heap.all, added] using ha
  | add d k =>
    simp only [Heap.step] at hs
    cases hg : h.get d with
    | none => rw [hg] at hs; simp at hs
    | some v =>
      rw [hg] at hs
      simp only [Option.some.injEq] at hs; subst hs
      obtain ⟨a, b, e1, e2, e3⟩ := parts hg
      have hd : (h.set d (v ++ [k])).docs = a ++ (d, v ++ [k]) :: b := by
        simp only [Heap.set, e1, List.map_append, List.map_cons, if_true]
        rw [set_other a d _ e2, set_other b d _ e3]
      refine ⟨?_, ?_⟩
      · rw [hd]; rw [e1] at hn; simpa using hn
      · simp only [Heap.all] at ha ⊢
        rw [hd]
        show ((a ++ (d, v ++ [k]) :: b).flatMap Prod.snd ++ h.deleted).Perm (c ++ [k])
        rw [e1] at ha
        simp only [List.flatMap_append, List.flatMap_cons, List.append_assoc] at ha ⊢
        have p2 : (v ++ ([k] ++ (List.flatMap Prod.snd b ++ h.deleted))).Perm (v ++ (List.flatMap Prod.snd b ++ h.deleted) ++ [k]) := by
          rw [List.append_assoc]
          exact List.Perm.append_left _ List.perm_append_comm
        have p1 : (List.flatMap Prod.snd a ++ (v ++ ([k] ++ (List.flatMap Prod.snd b ++ h.deleted)))).Perm
            ((List.flatMap Prod.snd a ++ (v ++ (List.flatMap Prod.snd b ++ h.deleted))) ++ [k]) := by
          refine (List.Perm.append_left _ p2).trans ?_
          rw [List.append_assoc (List.flatMap Prod.snd a)]
        exact p1.trans (List.Perm.append_right _ ha)
  | moveNew d e =>
    simp only [Heap.step] at hs
    cases hg : h.get d with
    | none => rw [hg] at hs; simp at hs
    | some v =>
      cases hge : h.get e with
      | some w => rw [hg, hge] at hs; simp at hs
      | none =>
        rw [hg, hge] at hs
        simp only [Option.some.injEq] at hs; subst hs
        obtain ⟨a, b, e1, e2, e3⟩ := parts hg
        have hd : (h.set d []).docs = a ++ (d, []) :: b := by
          simp only [Heap.set, e1, List.map_append, List.map_cons, if_true]
          rw [set_other a d _ e2, set_other b d _ e3]
        have hne := get_none hge
        refine ⟨?_, ?_⟩
        · show (((h.set d []).docs ++ [(e, v)]).map Prod.fst).Nodup
          rw [hd]
          rw [e1] at hn hne
          simp only [List.map_append, List.map_cons, List.map_nil, List.append_assoc] at hn hne ⊢
          rw [← List.append_assoc, List.nodup_append]
          refine ⟨hn, by simp, ?_⟩
          intro x hx y hy
          rw [List.mem_singleton] at hy
          subst hy
          intro he
          exact hne (he ▸ hx)
        · show (((h.set d []).docs ++ [(e, v)]).flatMap Prod.snd ++ h.deleted).Perm (c ++ [])
          rw [hd, List.append_nil]
          simp only [Heap.all] at ha
          rw [e1] at ha
          simp only [List.flatMap_append, List.flatMap_cons, List.flatMap_nil, List.append_assoc, List.nil_append, List.append_nil] at ha ⊢
          refine List.Perm.trans ?_ ha
          apply List.Perm.append_left
          rw [← List.append_assoc, ← List.append_assoc]
          exact List.Perm.append_right _ List.perm_append_comm
  | moveAssign d e => exact absurd rfl (h1 d e)
  | copyAssign d e => exact absurd rfl (h2 d e)
  | destroy d =>
    simp only [Heap.step] at hs
    cases hg : h.get d with
    | none => rw [hg] at hs; simp at hs
    | some v =>
      rw [hg] at hs
      simp only [Option.some.injEq] at hs; subst hs
      obtain ⟨a, b, e1, e2, e3⟩ := parts hg
      have hd : h.docs.filter (fun x => x.1 ≠ d) = a ++ b := by
        rw [e1, List.filter_append, List.filter_cons, filter_other a d e2, filter_other b d e3]
        simp
      refine ⟨?_, ?_⟩
      · show ((h.docs.filter (fun x => x.1 ≠ d)).map Prod.fst).Nodup
        rw [hd]
        rw [e1] at hn
        simp only [List.map_append, List.map_cons, List.nodup_append, List.nodup_cons] at hn ⊢
        exact ⟨hn.1, hn.2.1.2, fun x hx y hy => hn.2.2 x hx y (by simp [hy])⟩
      · show ((h.docs.filter (fun x => x.1 ≠ d)).flatMap Prod.snd ++ (h.deleted ++ v)).Perm (c ++ [])
        rw [hd, List.append_nil]
        simp only [Heap.all] at ha
        rw [e1] at ha
        simp only [List.flatMap_append, List.flatMap_cons, List.append_assoc] at ha ⊢
        refine List.Perm.trans ?_ ha
        apply List.Perm.append_left
        have : (v ++ (List.flatMap Prod.snd b ++ h.deleted)).Perm ((List.flatMap Prod.snd b ++ h.deleted) ++ v) := List.perm_append_comm
        rw [List.append_assoc] at this
        exact this.symm

theorem added_append (a b : List Op) : added (a ++ b) = added a ++ added b := by
  fun_induction added a with
  | case1 => rfl
  | case2 d c t ih => rw [List.cons_append]; simp only [added]; rw [ih]; rfl
  | case3 x t hx ih =>
    rw [List.cons_append, ← ih]
    cases x <;> first | rfl | exact absurd rfl (hx _ _)

theorem hinv_run {ops : List Op} {h h' : Heap} {c : List Nat} (hi : HInv h c) (hno : NoAssign ops) (hs : h.run ops = some h') :
    HInv h' (c ++ added ops) := by
  induction ops generalizing h c with
  | nil => simp only [Heap.run, Option.some.injEq] at hs; subst hs; simpa [added] using hi
  | cons o t ih =>
    simp only [Heap.run] at hs
    cases ho : h.step o with
    | none => rw [ho] at hs; simp at hs
    | some h1 =>
      rw [ho] at hs
      have hn := hno o (by simp)
      have := ih (hinv_step hi hn.1 hn.2 ho) (fun x hx => hno x (List.mem_cons_of_mem _ hx)) hs
      rw [List.append_assoc, ← added_append, List.singleton_append] at this
      exact this

/-- **C154.** Documents that are moved only into new ones own their conjunctions: at every moment each conjunction added belongs to
exactly one living document or has been deleted, once. -/
theorem c154_owned {ops : List Op} {h : Heap} (hno : NoAssign ops) (hd : (added ops).Nodup) (hs : Heap.run {} ops = some h) :
    (h.docs.flatMap Prod.snd ++ h.deleted).Perm (added ops) ∧ (h.docs.flatMap Prod.snd ++ h.deleted).Nodup := by
  have := (hinv_run (h := {}) (c := []) ⟨by simp, by simp [Heap.all]⟩ hno hs).all
  rw [List.nil_append] at this
  exact ⟨this, this.nodup_iff.2 hd⟩

/-- **C154.** When all documents are gone, every conjunction has been deleted exactly once. -/
theorem c154_no_leak {ops : List Op} {h : Heap} (hno : NoAssign ops) (hs : Heap.run {} ops = some h) (he : h.docs = []) :
    h.deleted.Perm (added ops) := by
  have := (hinv_run (h := {}) (c := []) ⟨by simp, by simp [Heap.all]⟩ hno hs).all
  simpa [Heap.all, he] using this

/-! ### Violations -/

/-- **C155, violation.** Two including expressions on the same field: in a release build the second is ignored but counted. -/
theorem c155_duplicate_violated (e f : Expr) (h : e.field = f.field) (he : e.exclude = false) (hf : f.exclude = false) :
    (Built.addAll {} [e, f]).assigns = [e] ∧ (Built.addAll {} [e, f]).size = 2 := by
  simp [Built.addAll, Built.add, h, he, hf]

/-- **C155, violation.** So its id asks for two fields, its entries are in the lists of one: a query on this field alone never finds the
document, whichever value it has (with the line of index_scanner.cc as written, or as intended). -/
theorem c155_unreachable_violated (endConj : Nat → Nat → Nat) (sortF : List Field → List Field) (hsort : ValidSort sortF)
    (id : Int) (hid : id.natAbs < 2 ^ 43) (fuel : Nat) :
    (Field.initialize [⟨[genEntryID (genConjID id 0 2) false], 0⟩]).map (fun f => scan endConj sortF (fuel + 1) [f]) = some (some []) := by
  have hlt := genConjID_lt (idx := 0) (size := 2) hid (by omega) (by omega)
  have hsz := (c12_conj_roundtrip (idx := 0) (size := 2) hid (by omega) (by omega)).2.2
  have hent : genEntryID (genConjID id 0 2) false = genConjID id 0 2 * 16 + 1 := by
    rw [genEntryID_eq hlt]; simp
  have hget : (Cur.get ⟨[genEntryID (genConjID id 0 2) false], 0⟩) = genEntryID (genConjID id 0 2) false := rfl
  simp only [Field.initialize, initLoop, Option.map_some, Option.some.injEq, Nat.lt_irrefl, if_false]
  rw [hget]
  generalize hF : (⟨[⟨[genEntryID (genConjID id 0 2) false], 0⟩], 0, genEntryID (genConjID id 0 2) false⟩ : Field) = F
  have hcur : F.currentId = genEntryID (genConjID id 0 2) false := by rw [← hF]
  have hs1 : sortF [F] = [F] := List.perm_singleton.1 (hsort.perm [F])
  have hne : (F.currentId == nullEntry) = false := by
    rw [hcur, hent]
    simp only [beq_eq_false_iff_ne, nullEntry]
    omega
  have hdrop : dropEnded [F] = [F] := by
    unfold dropEnded
    rw [List.reverse_singleton, List.dropWhile_cons, hne]
    rfl
  have hconj : entryConj F.currentId = genConjID id 0 2 := by
    rw [hcur, entryConj_eq, hent]; omega
  have hneed : need (entryConj F.currentId) = 2 := by
    unfold need
    rw [hconj, hsz]
    rfl
  have hit : iterate endConj sortF [F] = .stop := by
    unfold iterate
    rw [hs1, hdrop]
    show advance endConj F [F] = .stop
    unfold advance
    rw [hneed]
    rfl
  unfold scan
  rw [hit]

/-- **C155, violation.** Expressions added to a conjunction after it was added to its document: its id still has the old size, so
the index takes one matching field for enough. -/
theorem c155_late_violated (id : Int) (hid : id.natAbs < 2 ^ 43) (e f : Expr) (he : e.exclude = false) (hf : f.exclude = false)
    (hne : f.field ≠ e.field) : ∃ c, ((BDoc.add { id } {}).conjs.map (fun c => c.addAll [e, f])) = [c] ∧ c.assigns = [e, f] ∧ c.size = 2 ∧
      need c.cid = 1 ∧ getConjunctionSize c.cid = 0 := by
  refine ⟨⟨[e, f], 2, genConjID id 0 0⟩, ?_, rfl, rfl, ?_, ?_⟩
  · simp [BDoc.add, Built.addAll, Built.add, he, hf, Ne.symm hne]
  · unfold need
    rw [(c12_conj_roundtrip (idx := 0) (size := 0) hid (by omega) (by omega)).2.2, if_pos rfl]
  · exact (c12_conj_roundtrip (idx := 0) (size := 0) hid (by omega) (by omega)).2.2

/-- **C155, violation.** Copying a document: both delete its conjunctions. -/
theorem c155_copy_violated (c : Nat) : ∃ h, Heap.run {} [.new 0, .add 0 c, .new 1, .copyAssign 0 1, .destroy 0, .destroy 1] = some h ∧
    h.deleted = [c, c] := ⟨_, rfl, rfl⟩

/-- **C155, violation.** Moving a document into another that has conjunctions: those are never deleted. -/
theorem c155_move_leak_violated (c k : Nat) : ∃ h, Heap.run {} [.new 0, .add 0 c, .new 1, .add 1 k, .moveAssign 0 1, .destroy 0, .destroy 1] = some h ∧
    h.docs = [] ∧ h.deleted = [c] := ⟨_, rfl, rfl, rfl⟩

/-! ### The hypotheses are met -/

example : NoAssign [.new 0, .add 0 5, .add 0 6, .moveNew 0 1, .destroy 0, .destroy 1] ∧
    Heap.run {} [.new 0, .add 0 5, .add 0 6, .moveNew 0 1, .destroy 0, .destroy 1] = some ⟨[], [5, 6]⟩ := by
  refine ⟨?_, by decide⟩
  intro o ho
  simp only [List.mem_cons, List.not_mem_nil, or_false] at ho
  rcases ho with rfl | rfl | rfl | rfl | rfl | rfl <;> simp

example : ∀ es ∈ [[(⟨"age", ["1", "2"], false⟩ : Expr), ⟨"city", ["bj"], true⟩], []], (es.map Expr.field).Nodup := by decide

end Ltio.BoolIndex.Build
