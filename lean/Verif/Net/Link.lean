import Verif.Net.EndToEnd
import Verif.Net.EndToEndTls
import Verif.Client.Ordered
/-
The connections of EndToEnd.lean (TCP) and EndToEndTls.lean (TLS) as a client's queued channel sees them (Client/Ordered.lean).
-/
/-! ### Over TCP -/
namespace Ltio.Net.E2E
open Ltio.IOBuffer Ltio.Net
open Ltio.Client.Ordered (Link)
variable {σ E M : Type}

/-- The message an operation sends. -/
def POp.sends : POp M → Option (Bool × M)
  | .send i m _ => some (i, m)
  | _ => none

/-- Is it a read event at this end? -/
def POp.readsAt (i : Bool) : POp M → Bool
  | .readable j _ => i == j
  | _ => false

/-- What a step does to what an end has sent and been handed on. -/
structure Moves (a b : End σ E M) (o : POp M) (i : Bool) : Prop where
  sent : (b.sent = a.sent ∧ (∀ m, o.sends = some (i, m) → a.broken = true)) ∨ ∃ m, o.sends = some (i, m) ∧ b.sent = a.sent ++ [m]
  got : a.got <+: b.got
  quiet : o.readsAt i = false → b.got = a.got
  broken : a.broken = true → b = a

theorem receive_moves {k : Codec σ E} {e e' : End σ E M} (h : e.receive k = some e') : e'.sent = e.sent ∧ e.got <+: e'.got := by
  unfold End.receive at h
  split at h
  · simp only [Option.some.injEq] at h; rw [← h]; exact ⟨rfl, List.prefix_refl _⟩
  · split at h
    · simp at h
    · simp only [Option.some.injEq] at h; rw [← h]; exact ⟨rfl, List.prefix_append _ _⟩

theorem moves {k : Bool → Codec σ E} {pieces : M → List (List Byte)} {p p' : Pair σ E M} {o : POp M} (h : p.step k pieces o = some p') (i : Bool) :
    Moves (p.e i) (p'.e i) o i := by
  have same : (∀ m, o.sends = some (i, m) → (p.e i).broken = true) → p'.e i = p.e i → Moves (p.e i) (p'.e i) o i := by
    intro h0 e; rw [e]
    exact ⟨Or.inl ⟨rfl, h0⟩, List.prefix_refl _, fun _ => rfl, fun _ => rfl⟩
  have upd : ∀ (j : Bool) (x : End σ E M), p'.e i = (p.setE j x).e i → o.sends = none → (p.e j).broken ≠ true → x.sent = (p.e j).sent →
      (p.e j).got <+: x.got → (o.readsAt j = false → x.got = (p.e j).got) → Moves (p.e i) (p'.e i) o i := by
    intro j x e h0 h1 h2 h3 h4
    by_cases hj : i = j
    · subst hj
      rw [setE_same] at e
      rw [e]
      exact ⟨Or.inl ⟨h2, by intro m hm; rw [h0] at hm; simp at hm⟩, h3, h4, fun hb => absurd hb h1⟩
    · rw [setE_other p hj] at e
      exact same (by intro m hm; rw [h0] at hm; simp at hm) e
  cases o with
  | send j m s =>
    simp only [Pair.step] at h
    split at h
    · rename_i hb
      simp only [Option.some.injEq] at h
      refine same ?_ (by rw [h])
      intro m' hm'
      simp only [POp.sends, Option.some.injEq, Prod.mk.injEq] at hm'
      rw [← hm'.1]; exact hb
    · rename_i hb
      split at h
      · simp at h
      · simp only [Option.some.injEq] at h
        subst h
        by_cases hj : i = j
        · subst hj; rw [setE_same]
          exact ⟨Or.inr ⟨m, rfl, rfl⟩, List.prefix_refl _, fun _ => rfl, fun hh => absurd hh hb⟩
        · refine same ?_ (setE_other p hj _)
          intro m' hm'
          simp only [POp.sends, Option.some.injEq, Prod.mk.injEq] at hm'
          exact absurd hm'.1.symm hj
  | writable j s =>
    simp only [Pair.step] at h
    split at h
    · simp only [Option.some.injEq] at h; exact same (fun _ hh => (by simp [POp.sends] at hh)) (by rw [h])
    · rename_i hb
      split at h
      · simp at h
      · simp only [Option.some.injEq] at h; subst h
        exact upd j _ rfl rfl hb rfl (List.prefix_refl _) (fun _ => rfl)
  | readable j s =>
    simp only [Pair.step] at h
    split at h
    · simp only [Option.some.injEq] at h; exact same (fun _ hh => (by simp [POp.sends] at hh)) (by rw [h])
    · rename_i hb
      split at h
      · simp at h
      · split at h
        · simp at h
        · rename_i x hx
          simp only [Option.some.injEq] at h; subst h
          obtain ⟨h1, h2⟩ := receive_moves hx
          exact upd j x rfl rfl hb h1 h2 (fun hh => (by simp [POp.readsAt] at hh))
  | net j n =>
    simp only [Pair.step] at h
    split at h
    · simp only [Option.some.injEq] at h; exact same (fun _ hh => (by simp [POp.sends] at hh)) (by rw [h])
    · rename_i hb
      split at h
      · simp at h
      · simp only [Option.some.injEq] at h; subst h
        exact upd (!j) _ rfl rfl hb rfl (List.prefix_refl _) (fun _ => rfl)
  | clobber j e =>
    simp only [Pair.step] at h
    split at h
    · simp only [Option.some.injEq] at h; exact same (fun _ hh => (by simp [POp.sends] at hh)) (by rw [h])
    · rename_i hb
      split at h
      · simp at h
      · simp only [Option.some.injEq] at h; subst h
        exact upd j _ rfl rfl hb rfl (List.prefix_refl _) (fun _ => rfl)

/-- A connection of two ends as the client's channel sees it. -/
def link (k : Bool → Codec σ E) (pieces : M → List (List Byte)) : Link (Pair σ E M) (POp M) M E (List (List WRes)) where
  init := Pair.init k
  step := fun p o => p.step k pieces o
  sent := fun p i => (p.e i).sent
  got := fun p i => (p.e i).got
  broken := fun p => (p.e false).broken
  sends := POp.sends
  reads := POp.readsAt false
  ask := fun m s => .send false m s

theorem link_run (k : Bool → Codec σ E) (pieces : M → List (List Byte)) (ops : List (POp M)) (p : Pair σ E M) :
    (link k pieces).run p ops = p.run k pieces ops := by
  induction ops generalizing p with
  | nil => rfl
  | cons o t ih =>
    simp only [Link.run, Pair.run, link]
    cases p.step k pieces o with
    | none => rfl
    | some p' => exact ih p'

theorem link_lawful (k : Bool → Codec σ E) (pieces : M → List (List Byte)) (ok : Bool → M → Prop) (Arr : M → E → Prop)
    (h : ∀ ops, OkOpsOf ok ops → ∃ p, (Pair.init k).run k pieces ops = some p ∧ ∀ i, ∃ ms, ms <+: (p.e (!i)).sent ∧ List.Forall₂ Arr ms (p.e i).got) :
    (link k pieces).Lawful ok Arr where
  sends_ask := fun _ _ => rfl
  reads_ask := fun _ _ => rfl
  reads_sends := by
    intro o ho
    cases o with
    | readable j s => rfl
    | _ => simp [link, POp.readsAt] at ho
  step_sent := by
    intro p o p' hs i
    rcases (moves hs i).sent with ⟨e, -⟩ | e
    · exact Or.inl e
    · exact Or.inr e
  step_ask := by
    intro p m s p' hs hb
    have hs : p.step k pieces (POp.send false m s) = some p' := hs
    rcases (moves hs false).sent with ⟨-, e⟩ | ⟨m', e, e'⟩
    · have hb : (p.e false).broken = false := hb
      rw [e m rfl] at hb; simp at hb
    · simp only [POp.sends, Option.some.injEq, Prod.mk.injEq, true_and] at e
      rw [e]; exact e'
  step_got := fun p o p' hs i => (moves hs i).got
  step_quiet := fun p o p' hs hq => (moves hs false).quiet hq
  step_broken := by
    intro p o p' hs hb
    have := (moves hs false).broken hb
    refine ⟨?_, congrArg End.sent this, congrArg End.got this⟩
    show (p'.e false).broken = true
    rw [this]; exact hb
  init_sent := fun _ => rfl
  init_got := fun _ => rfl
  runs := by
    intro ops hok
    obtain ⟨p, h1, h2⟩ := h ops (by
      intro o ho i m s he
      exact hok o ho i m (by rw [he]; rfl))
    exact ⟨p, (link_run k pieces ops _).trans h1, h2⟩

end Ltio.Net.E2E

/-! ### Over TLS -/
namespace Ltio.Net.Ssl.E2E
open Ltio.IOBuffer Ltio.Net
open Ltio.Net.E2E (Codec)
open Ltio.Client.Ordered (Link)
variable {σ E M : Type}

/-- Is it a read event at this end? -/
def POp.readsAt (i : Bool) : POp M → Bool
  | .readable j _ => i == j
  | _ => false

/-- What a step does to what an end has sent and been handed on. -/
structure Moves (a b : End σ E M) (o : POp M) (i : Bool) : Prop where
  sent : (b.sent = a.sent ∧ (∀ m, o.sends = some (i, m) → a.broken = true)) ∨ ∃ m, o.sends = some (i, m) ∧ b.sent = a.sent ++ [m]
  got : a.got <+: b.got
  quiet : o.readsAt i = false → b.got = a.got
  broken : a.broken = true → b = a

theorem receive_moves {k : Codec σ E} {e e' : End σ E M} (h : e.receive k = some e') : e'.sent = e.sent ∧ e.got <+: e'.got := by
  unfold End.receive at h
  split at h
  · simp only [Option.some.injEq] at h; rw [← h]; exact ⟨rfl, List.prefix_refl _⟩
  · split at h
    · simp at h
    · simp only [Option.some.injEq] at h; rw [← h]; exact ⟨rfl, List.prefix_append _ _⟩

theorem moves {k : Bool → Codec σ E} {pieces : M → List (List Byte)} {p p' : Pair σ E M} {o : POp M} (h : p.step k pieces o = some p') (i : Bool) :
    Moves (p.e i) (p'.e i) o i := by
  have same : (∀ m, o.sends = some (i, m) → (p.e i).broken = true) → p'.e i = p.e i → Moves (p.e i) (p'.e i) o i := by
    intro h0 e; rw [e]
    exact ⟨Or.inl ⟨rfl, h0⟩, List.prefix_refl _, fun _ => rfl, fun _ => rfl⟩
  have upd : ∀ (j : Bool) (x : End σ E M), p'.e i = (p.setE j x).e i → o.sends = none → (p.e j).broken ≠ true → x.sent = (p.e j).sent →
      (p.e j).got <+: x.got → (o.readsAt j = false → x.got = (p.e j).got) → Moves (p.e i) (p'.e i) o i := by
    intro j x e h0 h1 h2 h3 h4
    by_cases hj : i = j
    · subst hj
      rw [setE_same] at e
      rw [e]
      exact ⟨Or.inl ⟨h2, by intro m hm; rw [h0] at hm; simp at hm⟩, h3, h4, fun hb => absurd hb h1⟩
    · rw [setE_other p hj] at e
      exact same (by intro m hm; rw [h0] at hm; simp at hm) e
  cases o with
  | send j m s =>
    simp only [Pair.step] at h
    split at h
    · rename_i hb
      simp only [Option.some.injEq] at h
      refine same ?_ (by rw [h])
      intro m' hm'
      simp only [POp.sends, Option.some.injEq, Prod.mk.injEq] at hm'
      rw [← hm'.1]; exact hb
    · rename_i hb
      split at h
      · simp at h
      · simp only [Option.some.injEq] at h
        subst h
        by_cases hj : i = j
        · subst hj; rw [setE_same]
          exact ⟨Or.inr ⟨m, rfl, rfl⟩, List.prefix_refl _, fun _ => rfl, fun hh => absurd hh hb⟩
        · refine same ?_ (setE_other p hj _)
          intro m' hm'
          simp only [POp.sends, Option.some.injEq, Prod.mk.injEq] at hm'
          exact absurd hm'.1.symm hj
  | queue j m =>
    simp only [Pair.step] at h
    split at h
    · rename_i hb
      simp only [Option.some.injEq] at h
      refine same ?_ (by rw [h])
      intro m' hm'
      simp only [POp.sends, Option.some.injEq, Prod.mk.injEq] at hm'
      rw [← hm'.1]; exact hb
    · rename_i hb
      split at h
      · simp at h
      · simp only [Option.some.injEq] at h
        subst h
        by_cases hj : i = j
        · subst hj; rw [setE_same]
          exact ⟨Or.inr ⟨m, rfl, rfl⟩, List.prefix_refl _, fun _ => rfl, fun hh => absurd hh hb⟩
        · refine same ?_ (setE_other p hj _)
          intro m' hm'
          simp only [POp.sends, Option.some.injEq, Prod.mk.injEq] at hm'
          exact absurd hm'.1.symm hj
  | flush j s =>
    simp only [Pair.step] at h
    split at h
    · simp only [Option.some.injEq] at h; exact same (fun _ hh => (by simp [POp.sends] at hh)) (by rw [h])
    · rename_i hb
      simp only [Option.some.injEq] at h; subst h
      exact upd j _ rfl rfl hb rfl (List.prefix_refl _) (fun _ => rfl)
  | writable j s =>
    simp only [Pair.step] at h
    split at h
    · simp only [Option.some.injEq] at h; exact same (fun _ hh => (by simp [POp.sends] at hh)) (by rw [h])
    · rename_i hb
      split at h
      · simp at h
      · simp only [Option.some.injEq] at h; subst h
        exact upd j _ rfl rfl hb rfl (List.prefix_refl _) (fun _ => rfl)
  | readable j s =>
    simp only [Pair.step] at h
    split at h
    · simp only [Option.some.injEq] at h; exact same (fun _ hh => (by simp [POp.sends] at hh)) (by rw [h])
    · rename_i hb
      split at h
      · simp at h
      · split at h
        · simp at h
        · rename_i x hx
          simp only [Option.some.injEq] at h; subst h
          obtain ⟨h1, h2⟩ := receive_moves hx
          exact upd j x rfl rfl hb h1 h2 (fun hh => (by simp [POp.readsAt] at hh))
  | net j n =>
    simp only [Pair.step] at h
    split at h
    · simp only [Option.some.injEq] at h; exact same (fun _ hh => (by simp [POp.sends] at hh)) (by rw [h])
    · rename_i hb
      split at h
      · simp at h
      · simp only [Option.some.injEq] at h; subst h
        exact upd (!j) _ rfl rfl hb rfl (List.prefix_refl _) (fun _ => rfl)
  | clobber j e =>
    simp only [Pair.step] at h
    split at h
    · simp only [Option.some.injEq] at h; exact same (fun _ hh => (by simp [POp.sends] at hh)) (by rw [h])
    · rename_i hb
      split at h
      · simp at h
      · simp only [Option.some.injEq] at h; subst h
        exact upd j _ rfl rfl hb rfl (List.prefix_refl _) (fun _ => rfl)

/-- A connection of two ends as the client's channel sees it. -/
def link (k : Bool → Codec σ E) (pieces : M → List (List Byte)) : Link (Pair σ E M) (POp M) M E Unit where
  init := Pair.init k
  step := fun p o => p.step k pieces o
  sent := fun p i => (p.e i).sent
  got := fun p i => (p.e i).got
  broken := fun p => (p.e false).broken
  sends := POp.sends
  reads := POp.readsAt false
  ask := fun m _ => .queue false m

theorem link_run (k : Bool → Codec σ E) (pieces : M → List (List Byte)) (ops : List (POp M)) (p : Pair σ E M) :
    (link k pieces).run p ops = p.run k pieces ops := by
  induction ops generalizing p with
  | nil => rfl
  | cons o t ih =>
    simp only [Link.run, Pair.run, link]
    cases p.step k pieces o with
    | none => rfl
    | some p' => exact ih p'

theorem link_lawful (k : Bool → Codec σ E) (pieces : M → List (List Byte)) (ok : Bool → M → Prop) (Arr : M → E → Prop)
    (h : ∀ ops, OkOpsOf ok ops → ∃ p, (Pair.init k).run k pieces ops = some p ∧ ∀ i, ∃ ms, ms <+: (p.e (!i)).sent ∧ List.Forall₂ Arr ms (p.e i).got) :
    (link k pieces).Lawful ok Arr where
  sends_ask := fun _ _ => rfl
  reads_ask := fun _ _ => rfl
  reads_sends := by
    intro o ho
    cases o with
    | readable j s => rfl
    | _ => simp [link, POp.readsAt] at ho
  step_sent := by
    intro p o p' hs i
    rcases (moves hs i).sent with ⟨e, -⟩ | e
    · exact Or.inl e
    · exact Or.inr e
  step_ask := by
    intro p m s p' hs hb
    have hs : p.step k pieces (POp.queue false m) = some p' := hs
    rcases (moves hs false).sent with ⟨-, e⟩ | ⟨m', e, e'⟩
    · have hb : (p.e false).broken = false := hb
      rw [e m rfl] at hb; simp at hb
    · simp only [POp.sends, Option.some.injEq, Prod.mk.injEq, true_and] at e
      rw [e]; exact e'
  step_got := fun p o p' hs i => (moves hs i).got
  step_quiet := fun p o p' hs hq => (moves hs false).quiet hq
  step_broken := by
    intro p o p' hs hb
    have := (moves hs false).broken hb
    refine ⟨?_, congrArg End.sent this, congrArg End.got this⟩
    show (p'.e false).broken = true
    rw [this]; exact hb
  init_sent := fun _ => rfl
  init_got := fun _ => rfl
  runs := by
    intro ops hok
    obtain ⟨p, h1, h2⟩ := h ops hok
    exact ⟨p, (link_run k pieces ops _).trans h1, h2⟩

end Ltio.Net.Ssl.E2E
