import Verif.Server.Accounting
import Mathlib.Data.List.Nodup
/-
C36: server connection accounting and shutdown notification.
-/
namespace Ltio.Server

/-- C36: in every reachable state the connection count equals the number of live connections; it
never underflows. -/
theorem c36_count {n limit : Nat} {s : St} (h : Reach n limit s) : s.count = s.connections n :=
  (reach_inv h).acc

/-- C36: a server with one io service (the default build) never exceeds its limit. -/
theorem c36_limit_single {limit : Nat} {s : St} (hl : 0 < limit) (h : Reach 1 limit s) :
    s.connections 1 ≤ limit := by
  have i := reach_inv h
  have := i.lim (by omega) hl
  rw [← i.acc]; omega

/-- C36 (partial): with `n` io services the limit can be exceeded by at most n - 1. -/
theorem c36_limit_partial {n limit : Nat} {s : St} (hn : 0 < n) (hl : 0 < limit) (h : Reach n limit s) :
    s.connections n ≤ limit + (n - 1) := by
  have i := reach_inv h
  have := i.lim hn hl
  rw [← i.acc]; omega

/-- C36: the stop callback is not invoked before every io service has stopped and every connection is
gone; and then no connection can be created any more. -/
theorem c36_callback_not_early {n limit : Nat} {s : St} (h : Reach n limit s) (hc : 0 < s.callbacks) :
    s.connections n = 0 ∧ s.count = 0 ∧ ∀ i, i < n → s.stopping i = true ∧ s.codecs i = [] := by
  have i := reach_inv h
  have hl : s.live = [] := by
    by_contra hx; have := i.called.2 hx; omega
  have ha : ∀ j, j < n → s.stopping j = true ∧ s.codecs j = [] := fun j hj => i.dead j hj (by simp [hl])
  have hz : ∀ m, m ≤ n → total (fun j => (s.codecs j).length) m = 0 := by
    intro m
    induction m with
    | zero => intro _; rfl
    | succ m ih => intro hm; simp [total, ih (by omega), (ha m (by omega)).2]
  exact ⟨hz n (Nat.le_refl _), by rw [i.acc]; exact hz n (Nat.le_refl _), ha⟩

/-- C36: once the server was stopped and all posted work is done, the callback has been invoked. -/
theorem c36_callback_eventually {n limit : Nat} {s : St} (hn : 0 < n) (h : Reach n limit s)
    (hs : s.serving = false) (h1 : s.pendStop = []) (h2 : s.pendForce = []) (h3 : s.pendRemove = []) :
    1 ≤ s.callbacks := by
  have i := reach_inv h
  refine i.called.1 ⟨?_, hn⟩
  by_contra hx
  obtain ⟨j, hj⟩ := List.exists_mem_of_ne_nil _ hx
  have hst : s.stopping j = true := by
    rcases i.stopPend hs j (i.liveLt j hj) with h4 | h4
    · exact h4
    · rw [h1] at h4; simp at h4
  obtain ⟨c, hc⟩ := List.exists_mem_of_ne_nil _ (i.drain j hst hj)
  rcases i.forced j c hst hc with h4 | h4
  · rw [h2] at h4; simp at h4
  · rw [h3] at h4; simp at h4

/-- All posted work can always be performed: unless everything is done, some step shrinks it. -/
theorem c36_shutdown_progress {n limit : Nat} {s : St} (hnc : ∀ i, s.checked i = false)
    (hw : s.pendStop ≠ [] ∨ s.pendForce ≠ [] ∨ s.pendRemove ≠ []) :
    ∃ l s', s.step n limit l = some s' ∧ (∃ i c, l = .force i c ∨ l = .remove i c ∨ l = .stop i) := by
  rcases hw with h | h | h
  · obtain ⟨i, hi⟩ := List.exists_mem_of_ne_nil _ h
    by_cases he : s.codecs i = []
    · exact ⟨.stop i, _, by simp only [St.step, hi, hnc i, and_self, if_true, he]; rfl, i, 0, Or.inr (Or.inr rfl)⟩
    · exact ⟨.stop i, _, by simp only [St.step, hi, hnc i, and_self, if_true, he, if_false]; rfl, i, 0, Or.inr (Or.inr rfl)⟩
  · obtain ⟨⟨i, c⟩, hi⟩ := List.exists_mem_of_ne_nil _ h
    exact ⟨.force i c, _, by simp only [St.step, hi, if_true]; rfl, i, c, Or.inl rfl⟩
  · obtain ⟨⟨i, c⟩, hi⟩ := List.exists_mem_of_ne_nil _ h
    exact ⟨.remove i c, _, by simp only [St.step, hi, hnc i, and_self, if_true]; rfl, i, c, Or.inr (Or.inl rfl)⟩

/-! ### Exactly once -/

/-- The additional assumption of the partial result: connections close at most once, none is being
removed when its service is stopped, and none closes on its own after that. -/
def Orderly (s : St) : Lab → Prop
  | .close i c => s.stopping i = false ∧ (i, c) ∉ s.pendRemove ∧ (i, c) ∉ s.pendForce ∧ c ∈ s.codecs i
  | .stop i => ∀ x ∈ s.pendRemove, x.1 ≠ i
  | _ => True

instance (s : St) (l : Lab) : Decidable (Orderly s l) := by
  cases l <;> unfold Orderly <;> infer_instance

inductive OReach (n limit : Nat) : St → Prop
  | init : OReach n limit (St.init n)
  | step {s s' l} : OReach n limit s → Orderly s l → s.step n limit l = some s' → OReach n limit s'

theorem OReach.reach {n limit : Nat} {s : St} (h : OReach n limit s) : Reach n limit s := by
  induction h with
  | init => exact .init
  | step _ _ h ih => exact .step ih h

structure OInv (s : St) : Prop where
  one : (s.pendForce ++ s.pendRemove).Nodup
  mem : ∀ i c, (i, c) ∈ s.pendForce ++ s.pendRemove → c ∈ s.codecs i
  forceStop : ∀ i c, (i, c) ∈ s.pendForce → s.stopping i = true
  cb : s.callbacks ≤ 1

theorem stoped_cb {n limit : Nat} {s : St} {i : Nat} (inv : Inv n limit s) (hi : i ∈ s.live) :
    ∀ t : St, t.callbacks = s.callbacks → t.live = s.live → (t.stoped i).callbacks ≤ 1 := by
  intro t h1 h2
  have h0 := inv.called.2 (List.ne_nil_of_mem hi)
  simp only [St.stoped, h1, h2, h0]
  split <;> omega

theorem ostep_inv {n limit : Nat} {s s' : St} {l : Lab} (inv : Inv n limit s) (o : OInv s)
    (ho : Orderly s l) (h : s.step n limit l = some s') : OInv s' := by
  obtain ⟨one, mem, fst, cb⟩ := o
  cases l with
  | check k =>
    simp only [St.step] at h
    split at h
    · split at h <;> (simp only [Option.some.injEq] at h; subst h; exact ⟨one, mem, fst, cb⟩)
    · simp at h
  | store k c =>
    simp only [St.step] at h
    split at h
    · simp only [Option.some.injEq] at h; subst h
      refine ⟨one, ?_, fst, cb⟩
      intro j d hd
      have := mem j d hd
      simp only [upd]
      split
      · rename_i hjk; subst hjk; exact List.mem_append_left _ this
      · exact this
    · simp at h
  | close k c =>
    simp only [St.step] at h
    obtain ⟨o1, o2, o3, o4⟩ := ho
    split at h
    · simp only [Option.some.injEq] at h; subst h
      refine ⟨?_, ?_, fst, cb⟩
      · simp only
        rw [← List.append_assoc, List.nodup_append]
        refine ⟨one, by simp, ?_⟩
        intro a ha b hb hab
        simp at hb; subst hb; subst hab
        rcases List.mem_append.1 ha with h1 | h1
        · exact o3 h1
        · exact o2 h1
      · intro j d hd
        simp only at hd
        rw [← List.append_assoc] at hd
        rcases List.mem_append.1 hd with h1 | h1
        · exact mem j d h1
        · simp at h1; rw [h1.1, h1.2]; exact o4
    · simp at h
  | stopServer =>
    simp only [St.step] at h
    split at h
    · simp only [Option.some.injEq] at h; subst h; exact ⟨one, mem, fst, cb⟩
    · simp at h
  | stop k =>
    simp only [St.step] at h
    split at h
    · rename_i hc
      obtain ⟨p1, p2, p3⟩ := inv.pendLive k hc.1
      have hf' : ∀ i c, (i, c) ∈ s.pendForce → upd s.stopping k true i = true := by
        intro i c hi; simp only [upd]; split
        · rfl
        · exact fst i c hi
      split at h
      · simp only [Option.some.injEq] at h; subst h
        exact ⟨one, mem, hf', stoped_cb inv p2 _ rfl rfl⟩
      · simp only [Option.some.injEq] at h; subst h
        refine ⟨?_, ?_, ?_, cb⟩
        · simp only
          have hnf : ∀ c, (k, c) ∉ s.pendForce := by
            intro c hcx; have := fst k c hcx; rw [p3] at this; simp at this
          have hmap : ((s.codecs k).map (fun c => (k, c))).Nodup := by
            refine (inv.nodup k).map ?_
            intro a b hab; simpa using hab
          rw [List.nodup_append] at one ⊢
          obtain ⟨q1, q2, q3⟩ := one
          refine ⟨?_, q2, ?_⟩
          · rw [List.nodup_append]
            refine ⟨q1, hmap, ?_⟩
            intro a ha b hb hab
            subst hab
            obtain ⟨d, _, hd⟩ := List.mem_map.1 hb
            rw [← hd] at ha; exact hnf d ha
          · intro a ha b hb hab
            subst hab
            rcases List.mem_append.1 ha with h1 | h1
            · exact q3 a h1 a hb rfl
            · obtain ⟨d, _, hd⟩ := List.mem_map.1 h1
              rw [← hd] at hb; exact ho _ hb rfl
        · intro j d hd
          simp only [List.mem_append] at hd
          rcases hd with (h1 | h1) | h1
          · exact mem j d (List.mem_append_left _ h1)
          · obtain ⟨e, he, hx⟩ := List.mem_map.1 h1
            simp at hx; rw [← hx.1, ← hx.2]; exact he
          · exact mem j d (List.mem_append_right _ h1)
        · intro i c hi
          simp only at hi
          rcases List.mem_append.1 hi with h1 | h1
          · exact hf' i c h1
          · obtain ⟨e, he, hx⟩ := List.mem_map.1 h1
            simp at hx; simp [upd, hx.1]
    · simp at h
  | force k c =>
    simp only [St.step] at h
    split at h
    · rename_i hm
      simp only [Option.some.injEq] at h; subst h
      have hp : (s.pendForce.erase (k, c) ++ (s.pendRemove ++ [(k, c)])).Perm (s.pendForce ++ s.pendRemove) := by
        have h1 : (s.pendRemove ++ [(k, c)]).Perm ((k, c) :: s.pendRemove) := List.perm_append_singleton _ _
        have h2 := (List.perm_cons_erase hm).symm
        calc s.pendForce.erase (k, c) ++ (s.pendRemove ++ [(k, c)])
            |>.Perm (s.pendForce.erase (k, c) ++ ((k, c) :: s.pendRemove)) := List.Perm.append_left _ h1
          _ |>.Perm ((k, c) :: s.pendForce.erase (k, c) ++ s.pendRemove) := List.perm_middle
          _ |>.Perm (s.pendForce ++ s.pendRemove) := List.Perm.append_right _ h2
      refine ⟨hp.nodup_iff.2 one, ?_, ?_, cb⟩
      · intro j d hd; exact mem j d (hp.mem_iff.1 hd)
      · intro j d hd; exact fst j d (List.mem_of_mem_erase hd)
    · simp at h
  | remove k c =>
    simp only [St.step] at h
    split at h
    · rename_i hc
      simp only [Option.some.injEq] at h
      have hck : c ∈ s.codecs k := mem k c (List.mem_append_right _ hc.1)
      have hkn := (inv.own k c hck).2
      have hkl : k ∈ s.live := by
        by_contra hx; have := (inv.dead k hkn hx).2; rw [this] at hck; simp at hck
      have hsub : (s.pendForce ++ s.pendRemove.erase (k, c)).Sublist (s.pendForce ++ s.pendRemove) :=
        List.Sublist.append_left List.erase_sublist _
      have hnot : (k, c) ∉ s.pendForce ++ s.pendRemove.erase (k, c) := by
        intro hx
        rcases List.mem_append.1 hx with h1 | h1
        · rw [List.nodup_append] at one; exact one.2.2 _ h1 _ hc.1 rfl
        · exact (List.nodup_append.1 one).2.1.not_mem_erase h1
      have hbase : OInv (({ s with pendRemove := s.pendRemove.erase (k, c) } : St).removeCodec k c) := by
        unfold St.removeCodec
        simp only [hck, if_true]
        refine ⟨hsub.nodup one, ?_, fst, cb⟩
        intro j d hd
        have := mem j d (hsub.subset hd)
        simp only [upd]
        split
        · rename_i hjk; subst hjk
          refine (inv.nodup j).mem_erase_iff.2 ⟨?_, this⟩
          intro hx; subst hx; exact hnot hd
        · exact this
      have hlive : (({ s with pendRemove := s.pendRemove.erase (k, c) } : St).removeCodec k c).live = s.live ∧
          (({ s with pendRemove := s.pendRemove.erase (k, c) } : St).removeCodec k c).callbacks = s.callbacks := by
        unfold St.removeCodec; split <;> simp
      subst h
      unfold St.afterRemove
      split
      · exact ⟨hbase.one, hbase.mem, hbase.forceStop, stoped_cb inv hkl _ hlive.2 hlive.1⟩
      · exact hbase
    · simp at h

/-- C36 (partial): if connections do not close on their own while their service is being stopped, the
stop callback is invoked at most once — hence, with `c36_callback_eventually`, exactly once. -/
theorem c36_callback_once_partial {n limit : Nat} {s : St} (h : OReach n limit s) : s.callbacks ≤ 1 := by
  have : OInv s := by
    induction h with
    | init => exact ⟨by simp [St.init], by simp [St.init], by simp [St.init], by simp [St.init]⟩
    | step h0 ho h ih => exact ostep_inv (reach_inv h0.reach) ih ho h
  exact this.cb

def runLabs (n limit : Nat) (s : St) : List Lab → Option St
  | [] => some s
  | l :: ls => match s.step n limit l with
    | none => none
    | some s' => runLabs n limit s' ls

theorem reach_runLabs {n limit : Nat} {s u : St} (ls : List Lab) (hs : Reach n limit s)
    (h : runLabs n limit s ls = some u) : Reach n limit u := by
  induction ls generalizing s with
  | nil => simp [runLabs] at h; subst h; exact hs
  | cons l ls ih =>
    simp only [runLabs] at h
    split at h
    · simp at h
    · rename_i s' h1; exact ih (.step hs h1) h

/-- C36 VIOLATION: a connection that closes on its own just before the server is stopped makes the
stop callback run twice (already with one io service and one connection). -/
theorem c36_violation_callback_twice : ∃ s, Reach 1 65536 s ∧ s.callbacks = 2 := by
  have h : (runLabs 1 65536 (St.init 1) [.check 0, .store 0 7, .close 0 7, .stopServer, .stop 0, .remove 0 7,
      .force 0 7, .remove 0 7]).map (·.callbacks) = some 2 := by decide +kernel
  obtain ⟨s, h1, h2⟩ := Option.map_eq_some_iff.1 h
  exact ⟨s, reach_runLabs _ .init h1, h2⟩

/-- A state with `k` connections, all of service 0, nobody accepting. -/
theorem fill (limit : Nat) : ∀ k, k ≤ limit → ∃ s, Reach 2 limit s ∧ s.count = k ∧
    (∀ i, s.checked i = false ∧ s.stopping i = false) ∧ (∀ x ∈ s.used, x.2 < k) := by
  intro k
  induction k with
  | zero => intro _; exact ⟨_, .init, rfl, fun _ => ⟨rfl, rfl⟩, by simp [St.init]⟩
  | succ k ih =>
    intro hk
    obtain ⟨s, hr, hc, hn, hu⟩ := ih (by omega)
    have h1 : s.step 2 limit (.check 0) = some { s with checked := upd s.checked 0 true } := by
      simp only [St.step, hn 0, and_self, and_true]
      rw [if_pos (by omega), if_pos (by omega)]
    have hk2 : k ∉ s.used.map (·.2) := by
      intro hx; obtain ⟨x, hx1, hx2⟩ := List.mem_map.1 hx; have := hu x hx1; omega
    have h2 : ({ s with checked := upd s.checked 0 true } : St).step 2 limit (.store 0 k) =
        some { s with codecs := upd s.codecs 0 (s.codecs 0 ++ [k]), count := s.count + 1, checked := upd (upd s.checked 0 true) 0 false, used := s.used ++ [(0, k)] } := by
      simp only [St.step]
      rw [if_pos ⟨by omega, by simp [upd], hk2⟩]
    refine ⟨_, .step (.step hr h1) h2, by simp only; omega, ?_, ?_⟩
    · intro i; refine ⟨?_, (hn i).2⟩
      simp only [upd]; split
      · rfl
      · exact (hn i).1
    · intro x hx
      simp only [List.mem_append, List.mem_singleton] at hx
      rcases hx with hx | rfl
      · have := hu x hx; omega
      · simp

/-- C36 VIOLATION: with two io services (LTIO_ENABLE_REUSER_PORT) the limit is exceeded, whatever it
is: both pass the test before either stores. -/
theorem c36_violation_limit (limit : Nat) (hl : 0 < limit) : ∃ s, Reach 2 limit s ∧ limit < s.connections 2 := by
  obtain ⟨s, hr, hc, hn, hu⟩ := fill limit (limit - 1) (by omega)
  have h1 : s.step 2 limit (.check 0) = some { s with checked := upd s.checked 0 true } := by
    simp only [St.step, hn 0, and_self, and_true]
    rw [if_pos (by omega), if_pos (by omega)]
  have h2 : ({ s with checked := upd s.checked 0 true } : St).step 2 limit (.check 1) =
      some { s with checked := upd (upd s.checked 0 true) 1 true } := by
    simp only [St.step]
    rw [if_pos ⟨by omega, by simp [upd, (hn 1).1], (hn 1).2⟩, if_pos (by omega)]
  have hk2 : limit ∉ s.used.map (·.2) := by
    intro hx; obtain ⟨x, hx1, hx2⟩ := List.mem_map.1 hx; have := hu x hx1; omega
  have h3 : ({ s with checked := upd (upd s.checked 0 true) 1 true } : St).step 2 limit (.store 0 limit) =
      some { s with codecs := upd s.codecs 0 (s.codecs 0 ++ [limit]), count := s.count + 1, checked := upd (upd (upd s.checked 0 true) 1 true) 0 false, used := s.used ++ [(0, limit)] } := by
    simp only [St.step]
    rw [if_pos ⟨by omega, by simp [upd], hk2⟩]
  have hk3 : limit + 1 ∉ (s.used ++ [(0, limit)]).map (fun x : Nat × Nat => x.2) := by
    intro hx
    simp only [List.map_append, List.mem_append] at hx
    rcases hx with hx | hx
    · obtain ⟨x, hx1, hx2⟩ := List.mem_map.1 hx; have := hu x hx1; omega
    · simp at hx
  have hs3 := Reach.step (.step (.step hr h1) h2) h3
  generalize ht : ({ s with codecs := upd s.codecs 0 (s.codecs 0 ++ [limit]), count := s.count + 1, checked := upd (upd (upd s.checked 0 true) 1 true) 0 false, used := s.used ++ [(0, limit)] } : St) = t at hs3
  have t1 : t.count = s.count + 1 ∧ t.checked 1 = true ∧ t.used = s.used ++ [(0, limit)] := by
    subst ht; simp [upd]
  have h4 : t.step 2 limit (.store 1 (limit + 1)) =
      some { t with codecs := upd t.codecs 1 (t.codecs 1 ++ [limit + 1]), count := t.count + 1, checked := upd t.checked 1 false, used := t.used ++ [(1, limit + 1)] } := by
    simp only [St.step]
    rw [if_pos ⟨by omega, t1.2.1, by rw [t1.2.2]; exact hk3⟩]
  refine ⟨_, .step hs3 h4, ?_⟩
  rw [← c36_count (.step hs3 h4)]
  simp only
  omega

def orun (n limit : Nat) (s : St) : List Lab → Option St
  | [] => some s
  | l :: ls => if Orderly s l then
      match s.step n limit l with
      | none => none
      | some s' => orun n limit s' ls
    else none

theorem oreach_orun {n limit : Nat} {s u : St} (ls : List Lab) (hs : OReach n limit s)
    (h : orun n limit s ls = some u) : OReach n limit u := by
  induction ls generalizing s with
  | nil => simp [orun] at h; subst h; exact hs
  | cons l ls ih =>
    simp only [orun] at h
    split at h
    · rename_i ho
      split at h
      · simp at h
      · rename_i s' h1; exact ih (.step hs ho h1) h
    · simp at h

/-- Witness for `c36_callback_eventually` and `c36_callback_once_partial`: an orderly history with two
services and a connection, after which the callback has run once. -/
theorem c36_witness : ∃ s, OReach 2 65536 s ∧ s.serving = false ∧ s.pendStop = [] ∧ s.pendForce = [] ∧
    s.pendRemove = [] ∧ s.callbacks = 1 := by
  have h : (orun 2 65536 (St.init 2) [.check 0, .store 0 7, .check 1, .store 1 8, .close 1 8, .remove 1 8, .stopServer,
      .stop 1, .stop 0, .force 0 7, .remove 0 7]).map (fun s => (s.serving, s.pendStop.length, s.pendForce.length, s.pendRemove.length, s.callbacks)) =
      some (false, 0, 0, 0, 1) := by decide +kernel
  obtain ⟨s, h1, h2⟩ := Option.map_eq_some_iff.1 h
  simp only [Prod.mk.injEq] at h2
  exact ⟨s, oreach_orun _ .init h1, h2.1, List.length_eq_zero_iff.1 h2.2.1, List.length_eq_zero_iff.1 h2.2.2.1,
    List.length_eq_zero_iff.1 h2.2.2.2.1, h2.2.2.2.2⟩

end Ltio.Server
