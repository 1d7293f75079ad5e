import Verif.IDE.Phase2Prec
/-!
# Termination of both phases
-/
set_option linter.unusedSectionVars false
namespace Phasar.IDE
open Phasar JoinLat

/-- Edge functions have finite height: joining something new into a jump function strictly lowers a
rank that is bounded by `H`. -/
structure EdgeAlg.FiniteHeight {L E : Type} (A : EdgeAlg L E) (ok : E → Prop) (rank : E → Nat)
    (H : Nat) : Prop where
  first : ∀ f, ok f → rank (A.combine A.allTop f) ≤ H
  next : ∀ e f, ok e → ok f → A.eqE (A.combine e f) e = false → rank (A.combine e f) < rank e

/-- The value lattice has finite height. -/
def FiniteHeightL (L : Type) [JoinLat L] (rank : L → Nat) : Prop :=
  ∀ a b : L, join a b ≠ a → rank (join a b) < rank a

section Sum

/-- Sum of `g` over a list. -/
def lsum {A : Type} (U : List A) (g : A → Nat) : Nat := (U.map g).sum

theorem lsum_le {A : Type} (U : List A) (g h : A → Nat) (hle : ∀ a, a ∈ U → g a ≤ h a) :
    lsum U g ≤ lsum U h := by
  induction U with
  | nil => simp [lsum]
  | cons a U ih =>
    have h1 := hle a List.mem_cons_self
    have h2 := ih fun b hb => hle b (List.mem_cons_of_mem _ hb)
    simp only [lsum, List.map_cons, List.sum_cons] at h2 ⊢
    omega

theorem lsum_lt {A : Type} (U : List A) (g h : A → Nat) (hle : ∀ a, a ∈ U → g a ≤ h a) {x : A}
    (hx : x ∈ U) (hlt : g x < h x) : lsum U g < lsum U h := by
  induction U with
  | nil => simp at hx
  | cons a U ih =>
    have h1 := hle a List.mem_cons_self
    have h2 : ∀ b, b ∈ U → g b ≤ h b := fun b hb => hle b (List.mem_cons_of_mem _ hb)
    have h3 := lsum_le U g h h2
    simp only [lsum, List.map_cons, List.sum_cons] at h3 ⊢
    rcases List.mem_cons.1 hx with rfl | hx
    · omega
    · have h4 := ih h2 hx
      simp only [lsum] at h4
      omega

end Sum

/-- Accessibility from a lexicographic measure on states satisfying an invariant. -/
theorem acc_of_measure {S : Type} (R : S → S → Prop) (I : S → Prop) (m1 m2 : S → Nat)
    (hI : ∀ s t, I s → R s t → I t)
    (hm : ∀ s t, I s → R s t → m1 t < m1 s ∨ (m1 t = m1 s ∧ m2 t < m2 s)) :
    ∀ s, I s → Acc (fun t s => R s t) s := by
  have key : ∀ a b s, m1 s = a → m2 s = b → I s → Acc (fun t s => R s t) s := by
    intro a
    induction a using Nat.strongRecOn with
    | ind a iha =>
      intro b
      induction b using Nat.strongRecOn with
      | ind b ihb =>
        intro s h1 h2 hs
        refine ⟨_, fun t ht => ?_⟩
        rcases hm s t hs ht with h | ⟨h, h'⟩
        · exact iha (m1 t) (h1 ▸ h) _ t rfl rfl (hI s t hs ht)
        · exact ihb (m2 t) (h2 ▸ h') t (h.trans h1) rfl (hI s t hs ht)
  exact fun s hs => key _ _ s rfl rfl hs

section
variable {N D F L E : Type} [DecidableEq N] [DecidableEq D] [JoinLat L] [DecidableEq L]

/-- Rank of a table cell, absent cells rank highest. -/
def cellRank (rank : E → Nat) (H : Nat) : Option E → Nat
  | none => H + 1
  | some e => rank e

/-- Phase I: every sequence of steps from a reachable state is finite. -/
theorem phase1_acc {P : Problem N D F L E} {ok : E → Prop} (hok : OkClosed P.alg ok)
    (hP : P.OkEdges ok) (hwf : P.icf.WF) {rank : E → Nat} {H : Nat}
    (hH : P.alg.FiniteHeight ok rank H) (U : List (D × N × D))
    (hU : ∀ s, Reach P s → ∀ p e, (p, e) ∈ s.wl → (p.d1, p.n, p.d2) ∈ U)
    {s : St N D E} (hs : Reach P s) : Acc (fun t s => SStep P s t) s := by
  refine acc_of_measure (SStep P) (Reach P)
    (fun s => lsum U fun k => cellRank rank H (s.jump.get k)) (fun s => s.wl.length)
    (fun s t hs h => .step hs h) ?_ s hs
  intro s t hs h
  have hi := inv_reach hok.toFor hP.toFor hwf hs
  have hUs := hU s hs
  cases h with
  | take a b x hx =>
  obtain ⟨⟨d1, n, d2⟩, f⟩ := x
  have hmem : (d1, n, d2) ∈ U := hUs ⟨d1, n, d2⟩ f (by rw [hx]; simp)
  have hfok : ok f := hi.okW ⟨d1, n, d2⟩ f (by rw [hx]; simp)
  unfold propagate
  dsimp only
  have hj0 : jumpFunction P { s with wl := a ++ b } d1 n d2 = jumpFunction P s d1 n d2 := rfl
  rw [hj0]
  split
  · right
    refine ⟨rfl, ?_⟩
    rw [hx]
    simp
  · rename_i hne
    left
    rw [task_jump]
    dsimp only
    have hlt : cellRank rank H (some (P.alg.combine (jumpFunction P s d1 n d2) f)) <
        cellRank rank H (s.jump.get (d1, n, d2)) := by
      unfold jumpFunction at hne ⊢
      cases hg : s.jump.get (d1, n, d2) with
      | none => exact Nat.lt_succ_of_le (hH.first _ hfok)
      | some e =>
        simp only [hg] at hne
        exact hH.next _ _ (hi.okJ _ _ hg) hfok (by simpa using hne)
    refine lsum_lt U _ _ ?_ hmem ?_
    · intro k _
      rw [AMap.get_set]
      split
      · rename_i hk; subst hk; exact Nat.le_of_lt hlt
      · exact Nat.le_refl _
    · rw [AMap.get_set, if_pos rfl]
      exact hlt

/-- Nothing happened, or some value changed. -/
def Prog (v w : VS N D L) : Prop := w = v ∨ ∃ n d, val v n d ≠ val w n d

theorem Prog.trans {u v w : VS N D L} (g1 : Grow u v) (g2 : Grow v w) (h1 : Prog u v)
    (h2 : Prog v w) : Prog u w := by
  rcases h1 with rfl | ⟨n, d, h⟩
  · exact h2
  · right
    refine ⟨n, d, fun he => h ?_⟩
    exact le_antisymm (g1.le n d) (he ▸ g2.le n d)

theorem prog_propagateValue (v : VS N D L) (n : N) (d : D) (l : L) :
    Prog v (propagateValue v n d l) := by
  unfold propagateValue
  dsimp only
  split
  · exact .inl rfl
  · rename_i h
    right
    refine ⟨n, d, ?_⟩
    change _ ≠ val (setVal _ _ _ _) _ _
    rw [val_setVal, if_pos rfl]
    exact fun he => h he.symm

theorem foldl_prog {ι : Type} (st : VS N D L → ι → VS N D L) (hg : ∀ v i, Grow v (st v i))
    (hp : ∀ v i, Prog v (st v i)) (l : List ι) (v : VS N D L) :
    Grow v (l.foldl st v) ∧ Prog v (l.foldl st v) := by
  induction l generalizing v with
  | nil => exact ⟨Grow.refl v, .inl rfl⟩
  | cons a l ih =>
    obtain ⟨h1, h2⟩ := ih (st v a)
    exact ⟨(hg v a).trans h1, Prog.trans (hg v a) h1 (hp v a) h2⟩

theorem task_prog (P : Problem N D F L E) (s : St N D E) (v : VS N D L) (n : N) (d : D) :
    Prog v (valuePropagationTask P s v n d) := by
  have hS : ∀ v, Grow v (propagateValueAtStart P s.jump v n d) ∧
      Prog v (propagateValueAtStart P s.jump v n d) := by
    intro v
    unfold propagateValueAtStart
    have i := fun c v => foldl_prog
      (fun (v : VS N D L) (en : D × E) => propagateValue v c en.1 (P.alg.ap en.2 (val v n d)))
      (fun v i => (ext_propagateValue _ _ _ _).toGrow) (fun v i => prog_propagateValue _ _ _ _)
      (forwardLookup s.jump d c) v
    exact foldl_prog _ (fun v c => (i c v).1) (fun v c => (i c v).2) _ v
  have hC : ∀ v, Prog v (propagateValueAtCall P v n d) := by
    intro v
    unfold propagateValueAtCall
    have i1 := fun (g : F) (d' : D) (v : VS N D L) => foldl_prog
      (fun (v : VS N D L) (sp : N) =>
        propagateValue v sp d' (P.alg.ap (P.callEdge n d g d') (val v n d)))
      (fun v i => (ext_propagateValue _ _ _ _).toGrow) (fun v i => prog_propagateValue _ _ _ _)
      (P.icf.starts g) v
    have i2 := fun (g : F) (v : VS N D L) => foldl_prog _ (fun v d' => (i1 g d' v).1)
      (fun v d' => (i1 g d' v).2) (P.callFlow n g d) v
    exact (foldl_prog _ (fun v g => (i2 g v).1) (fun v g => (i2 g v).2) _ v).2
  unfold valuePropagationTask
  dsimp only
  split <;> split
  · exact Prog.trans (hS v).1 (atCall_spec P _ n d).1.toGrow (hS v).2 (hC _)
  · exact hC v
  · exact (hS v).2
  · exact .inl rfl

theorem rank_leOn {Q : L → Prop} {rank : L → Nat} (hr : ∀ a b : L, Q a → Q b → join a b ≠ a → rank (join a b) < rank a) {a b : L}
    (ha : Q a) (hb : Q b) (h : a ⊑ b) : rank b ≤ rank a ∧ (a ≠ b → rank b < rank a) := by
  by_cases he : a = b
  · subst he; exact ⟨Nat.le_refl _, fun h => absurd rfl h⟩
  · have := hr a b ha hb (by rw [h]; exact fun h => he h.symm)
    rw [h] at this
    exact ⟨Nat.le_of_lt this, fun _ => this⟩

theorem rank_le {rank : L → Nat} (hr : FiniteHeightL L rank) {a b : L} (h : a ⊑ b) :
    rank b ≤ rank a ∧ (a ≠ b → rank b < rank a) :=
  rank_leOn (Q := fun _ => True) (fun a b _ _ => hr a b) trivial trivial h

/-- Phase II(i): every sequence of steps from a reachable state is finite, if the values that occur have finite height. -/
theorem phase2_accOn {P : Problem N D F L E} {s : St N D E} {Q : L → Prop} {rank : L → Nat}
    (hr : ∀ a b : L, Q a → Q b → join a b ≠ a → rank (join a b) < rank a) (U : List (N × D))
    (hU : ∀ v, VReach P s v → ∀ n d, Stored v n d → (n, d) ∈ U)
    (hQ : ∀ v, VReach P s v → ∀ n d, Q (val v n d))
    {v : VS N D L} (hv : VReach P s v) : Acc (fun w v => VStep P s v w) v := by
  refine acc_of_measure (VStep P s) (VReach P s)
    (fun v => lsum U fun k => rank (val v k.1 k.2)) (fun v => v.vwl.length)
    (fun v w hs h => .step hs h) ?_ v hv
  intro v w hv h
  have hw := hU w (.step hv h)
  have hq := hQ v hv
  have hq' := hQ w (.step hv h)
  have hgrow := (vInv_step (vReach_spec hv).1 h).2
  cases h with
  | take a b x hx =>
    rcases task_prog P s { v with vwl := a ++ b } x.1 x.2 with h | ⟨n, d, h⟩
    · right
      rw [h]
      refine ⟨rfl, ?_⟩
      dsimp only
      rw [hx]
      simp
    · left
      have hne : val v n d ≠ val (valuePropagationTask P s { v with vwl := a ++ b } x.1 x.2) n d := h
      have hst := hw n d (stored_of_ne_top (v := valuePropagationTask P s _ x.1 x.2) (n := n) (d := d)
        (fun ht => hne (by
          have := hgrow.le n d
          rw [ht] at this
          rw [ht]
          exact eq_top_of_le_top this)))
      exact lsum_lt U _ _ (fun k _ => (rank_leOn hr (hq _ _) (hq' _ _) (hgrow.le k.1 k.2)).1) hst
        ((rank_leOn hr (hq _ _) (hq' _ _) (hgrow.le n d)).2 hne)

/-- Phase II(i): every sequence of steps from a reachable state is finite. -/
theorem phase2_acc {P : Problem N D F L E} {s : St N D E} {rank : L → Nat}
    (hr : FiniteHeightL L rank) (U : List (N × D))
    (hU : ∀ v, VReach P s v → ∀ n d, Stored v n d → (n, d) ∈ U)
    {v : VS N D L} (hv : VReach P s v) : Acc (fun w v => VStep P s v w) v :=
  phase2_accOn (Q := fun _ => True) (fun a b _ _ => hr a b) U hU (fun _ _ _ _ => trivial) hv

/-- An accessible state has a final successor along the deterministic order, found with fuel. -/
theorem runPhase1_of_acc {P : Problem N D F L E} {s : St N D E}
    (h : Acc (fun t s => SStep P s t) s) (hr : Reach P s) :
    ∃ fuel t, runPhase1 P fuel s = some t ∧ Reach P t ∧ t.wl = [] := by
  induction h with
  | intro s _ ih =>
    cases hl : s.wl.getLast? with
    | none =>
      have hnil : s.wl = [] := by simpa using hl
      exact ⟨0, s, by simp [runPhase1, hnil], hr, hnil⟩
    | some x =>
      obtain ⟨ys, hys⟩ := List.getLast?_eq_some_iff.1 hl
      have hstep : SStep P s (propagate P { s with wl := s.wl.dropLast } x.1 x.2) := by
        have : s.wl.dropLast = ys ++ [] := by rw [hys]; simp
        rw [this]
        exact .take s ys [] x hys
      obtain ⟨fuel, t, h1, h2, h3⟩ := ih _ hstep (.step hr hstep)
      refine ⟨fuel + 1, t, ?_, h2, h3⟩
      simp [runPhase1, doNext, hl, h1]

theorem runPhase2_of_acc {P : Problem N D F L E} {s : St N D E} {v : VS N D L}
    (h : Acc (fun w v => VStep P s v w) v) (hr : VReach P s v) :
    ∃ fuel w, runPhase2 P s fuel v = some w ∧ VReach P s w ∧ w.vwl = [] := by
  induction h with
  | intro v _ ih =>
    cases hl : v.vwl.getLast? with
    | none =>
      have hnil : v.vwl = [] := by simpa using hl
      exact ⟨0, v, by simp [runPhase2, hnil], hr, hnil⟩
    | some x =>
      obtain ⟨ys, hys⟩ := List.getLast?_eq_some_iff.1 hl
      have hstep : VStep P s v (valuePropagationTask P s { v with vwl := v.vwl.dropLast } x.1 x.2) := by
        have : v.vwl.dropLast = ys ++ [] := by rw [hys]; simp
        rw [this]
        exact .take v ys [] x hys
      obtain ⟨fuel, t, h1, h2, h3⟩ := ih _ hstep (.step hr hstep)
      refine ⟨fuel + 1, t, ?_, h2, h3⟩
      simp [runPhase2, vNext, hl, h1]

theorem runPhase1_mono {P : Problem N D F L E} {k : Nat} {s t : St N D E}
    (h : runPhase1 P k s = some t) (k' : Nat) : runPhase1 P (k + k') s = some t := by
  induction k generalizing s with
  | zero =>
    simp only [runPhase1] at h
    split at h
    · rename_i hn
      have hn : s.wl = [] := by simpa using hn
      cases h
      cases k' with
      | zero => simp [runPhase1, hn]
      | succ k' => simp [runPhase1, doNext, hn]
    · cases h
  | succ k ih =>
    rw [Nat.add_right_comm]
    simp only [runPhase1] at h ⊢
    split at h
    · exact h
    · exact ih h

theorem runPhase2_mono {P : Problem N D F L E} {s : St N D E} {k : Nat} {v w : VS N D L}
    (h : runPhase2 P s k v = some w) (k' : Nat) : runPhase2 P s (k + k') v = some w := by
  induction k generalizing v with
  | zero =>
    simp only [runPhase2] at h
    split at h
    · rename_i hn
      have hn : v.vwl = [] := by simpa using hn
      cases h
      cases k' with
      | zero => simp [runPhase2, hn]
      | succ k' => simp [runPhase2, vNext, hn]
    · cases h
  | succ k ih =>
    rw [Nat.add_right_comm]
    simp only [runPhase2] at h ⊢
    split at h
    · exact h
    · exact ih h

/-- The fuelled driver only returns complete runs. -/
theorem runPhase1_sound {P : Problem N D F L E} {k : Nat} {s t : St N D E}
    (h : runPhase1 P k s = some t) (hr : Reach P s) : Reach P t ∧ t.wl = [] := by
  induction k generalizing s with
  | zero =>
    simp only [runPhase1] at h
    split at h
    · rename_i hn
      cases h
      exact ⟨hr, by simpa using hn⟩
    · cases h
  | succ k ih =>
    simp only [runPhase1, doNext] at h
    cases hl : s.wl.getLast? with
    | none =>
      simp only [hl] at h
      cases h
      exact ⟨hr, by simpa using hl⟩
    | some x =>
      simp only [hl] at h
      obtain ⟨ys, hys⟩ := List.getLast?_eq_some_iff.1 hl
      refine ih h (.step hr ?_)
      have : s.wl.dropLast = ys ++ [] := by rw [hys]; simp
      rw [this]
      exact .take s ys [] x hys

theorem runPhase2_sound {P : Problem N D F L E} {s : St N D E} {k : Nat} {v w : VS N D L}
    (h : runPhase2 P s k v = some w) (hr : VReach P s v) : VReach P s w ∧ w.vwl = [] := by
  induction k generalizing v with
  | zero =>
    simp only [runPhase2] at h
    split at h
    · rename_i hn
      cases h
      exact ⟨hr, by simpa using hn⟩
    · cases h
  | succ k ih =>
    simp only [runPhase2, vNext] at h
    cases hl : v.vwl.getLast? with
    | none =>
      simp only [hl] at h
      cases h
      exact ⟨hr, by simpa using hl⟩
    | some x =>
      simp only [hl] at h
      obtain ⟨ys, hys⟩ := List.getLast?_eq_some_iff.1 hl
      refine ih h (.step hr ?_)
      have : v.vwl.dropLast = ys ++ [] := by rw [hys]; simp
      rw [this]
      exact .take v ys [] x hys

theorem solve_sound {P : Problem N D F L E} {k : Nat} {s : St N D E} {v : VS N D L}
    (h : solve P k = some (s, v)) : Solved P s v := by
  unfold solve at h
  cases h1 : runPhase1 P k (init P) with
  | none => simp [h1] at h
  | some s' =>
    cases h2 : runPhase2 P s' k (submitInitialValues P s') with
    | none => simp [h1, h2] at h
    | some v' =>
      simp only [h1, h2, Option.bind_eq_bind, Option.bind_some, Option.pure_def,
        Option.some.injEq, Prod.mk.injEq] at h
      obtain ⟨rfl, rfl⟩ := h
      obtain ⟨h3, h4⟩ := runPhase1_sound h1 .init
      obtain ⟨h5, h6⟩ := runPhase2_sound h2 .init
      exact .intro h3 h4 h5 h6

end
end Phasar.IDE
