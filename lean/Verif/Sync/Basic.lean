/-
Executions of a labelled transition system given as a partial step function, and updates of
per-thread or per-node tables.  Used by the models of base/memory and base/lockfree.
-/
namespace Ltio.Sync

/-- Run a schedule from a state; `none` if some step is not possible. -/
def runs {S L : Type} (step : S → L → Option S) : S → List L → Option S
  | s, [] => some s
  | s, l :: ls => (step s l).bind (fun s' => runs step s' ls)

/-- The states some schedule leads to. -/
def Reach {S L : Type} (step : S → L → Option S) (i s : S) : Prop :=
  ∃ ls, runs step i ls = some s

theorem runs_append {S L : Type} (step : S → L → Option S) (s : S) (a b : List L) :
    runs step s (a ++ b) = (runs step s a).bind (fun s' => runs step s' b) := by
  induction a generalizing s with
  | nil => rfl
  | cons l a ih =>
    simp only [List.cons_append, runs]
    cases step s l with
    | none => rfl
    | some s' => simp only [Option.bind_some]; exact ih s'

/-- An invariant of the steps holds wherever a schedule leads. -/
theorem inv_runs {S L : Type} {step : S → L → Option S} {I : S → Prop}
    (hstep : ∀ s l s', I s → step s l = some s' → I s') :
    ∀ (ls : List L) (s s' : S), I s → runs step s ls = some s' → I s' := by
  intro ls
  induction ls with
  | nil => intro s s' h hr; simp only [runs, Option.some.injEq] at hr; exact hr ▸ h
  | cons l ls ih =>
    intro s s' h hr
    simp only [runs] at hr
    cases hs : step s l with
    | none => simp [hs] at hr
    | some s1 =>
      simp only [hs, Option.bind_some] at hr
      exact ih s1 s' (hstep s l s1 h hs) hr

theorem inv_reach {S L : Type} {step : S → L → Option S} {I : S → Prop} {i s : S}
    (hi : I i) (hstep : ∀ s l s', I s → step s l = some s' → I s') (h : Reach step i s) : I s :=
  let ⟨ls, hls⟩ := h
  inv_runs hstep ls i s hi hls

/-- Assign one entry of a table. -/
def put {α : Type} (f : Nat → α) (k : Nat) (v : α) : Nat → α := fun j => if j = k then v else f j

@[simp] theorem put_same {α : Type} (f : Nat → α) (k : Nat) (v : α) : put f k v k = v := by
  simp [put]

theorem put_ne {α : Type} (f : Nat → α) {k j : Nat} (v : α) (h : j ≠ k) : put f k v j = f j := by
  simp [put, h]

end Ltio.Sync
