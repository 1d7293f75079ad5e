import Verif.IDE.Phase1Prec
/-!
# Phase II: values
-/
set_option linter.unusedSectionVars false
namespace Phasar.IDE
open Phasar JoinLat

section
variable {N D F L E : Type} [DecidableEq N] [DecidableEq D] [JoinLat L] [DecidableEq L]

/-- `(n, d)` has a cell in `ValTab`. -/
def Stored (v : VS N D L) (n : N) (d : D) : Prop := ∃ l, v.tab.get (n, d) = some l

theorem val_eq {v : VS N D L} {n : N} {d : D} {l : L} (h : v.tab.get (n, d) = some l) :
    val v n d = l := by simp [val, h]

theorem stored_of_ne_top {v : VS N D L} {n : N} {d : D} (h : val v n d ≠ top) : Stored v n d := by
  unfold val at h
  split at h
  · exact ⟨_, ‹_›⟩
  · exact absurd rfl h

/-- Values grow and cells stay. -/
structure Grow (v w : VS N D L) : Prop where
  le : ∀ n d, val v n d ⊑ val w n d
  keep : ∀ n d, Stored v n d → Stored w n d

theorem Grow.refl (v : VS N D L) : Grow v v := ⟨fun _ _ => le_refl _, fun _ _ h => h⟩
theorem Grow.trans {u v w : VS N D L} (h1 : Grow u v) (h2 : Grow v w) : Grow u w :=
  ⟨fun n d => le_trans (h1.le n d) (h2.le n d), fun n d h => h2.keep n d (h1.keep n d h)⟩

/-- Growing where every change is recorded in the worklist. -/
structure Ext (v w : VS N D L) : Prop extends Grow v w where
  wl : ∀ x, x ∈ v.vwl → x ∈ w.vwl
  same : ∀ n d, val v n d = val w n d ∨ (n, d) ∈ w.vwl
  fresh : ∀ n d, Stored w n d → Stored v n d ∨ (n, d) ∈ w.vwl
  wst : (∀ x, x ∈ v.vwl → Stored v x.1 x.2) → ∀ x, x ∈ w.vwl → Stored w x.1 x.2

theorem Ext.refl (v : VS N D L) : Ext v v :=
  ⟨Grow.refl v, fun _ h => h, fun _ _ => .inl rfl, fun _ _ h => .inl h, fun h => h⟩

theorem Ext.trans {u v w : VS N D L} (h1 : Ext u v) (h2 : Ext v w) : Ext u w where
  toGrow := h1.toGrow.trans h2.toGrow
  wl := fun x h => h2.wl x (h1.wl x h)
  same := fun n d => by
    rcases h1.same n d with h | h
    · rw [h]; exact h2.same n d
    · exact .inr (h2.wl _ h)
  fresh := fun n d h => by
    rcases h2.fresh n d h with h | h
    · rcases h1.fresh n d h with h | h
      · exact .inl h
      · exact .inr (h2.wl _ h)
    · exact .inr h
  wst := fun h => h2.wst (h1.wst h)

theorem val_setVal (v : VS N D L) (n : N) (d : D) (l : L) (n' : N) (d' : D) :
    val (setVal v n d l) n' d' = if (n, d) = (n', d') then l else val v n' d' := by
  unfold val setVal
  simp only [AMap.get_set]
  by_cases h : (n, d) = (n', d')
  · rw [if_pos h, if_pos h]
  · rw [if_neg h, if_neg h]

theorem stored_setVal (v : VS N D L) (n : N) (d : D) (l : L) (n' : N) (d' : D) :
    Stored (setVal v n d l) n' d' ↔ (n, d) = (n', d') ∨ Stored v n' d' := by
  unfold Stored setVal
  simp only [AMap.get_set]
  split
  · rename_i h; simp [h]
  · rename_i h; simp [h]

theorem grow_setVal_join (v : VS N D L) (n : N) (d : D) (l : L) (hl : val v n d ⊑ l) :
    Grow v (setVal v n d l) where
  le := fun n' d' => by
    rw [val_setVal]
    split
    · rename_i h
      obtain ⟨rfl, rfl⟩ := Prod.mk.inj h
      exact hl
    · exact le_refl _
  keep := fun n' d' h => (stored_setVal _ _ _ _ _ _).2 (.inr h)

theorem ext_propagateValue (v : VS N D L) (n : N) (d : D) (l : L) :
    Ext v (propagateValue v n d l) := by
  unfold propagateValue
  dsimp only
  split
  · exact Ext.refl v
  · have hg := grow_setVal_join v n d (join (val v n d) l) (le_join_left _ _)
    exact
      { le := hg.le, keep := hg.keep
        wl := fun x h => List.mem_append_left _ h
        same := fun n' d' => by
          change _ = val (setVal _ _ _ _) _ _ ∨ (n', d') ∈ v.vwl ++ [(n, d)]
          rw [val_setVal]
          split
          · rename_i h
            right
            rw [← h]
            simp
          · exact .inl rfl
        fresh := fun n' d' h => by
          change Stored (setVal _ _ _ _) _ _ at h
          rw [stored_setVal] at h
          rcases h with h | h
          · right; change (n', d') ∈ v.vwl ++ [(n, d)]; simp [h]
          · exact .inl h
        wst := fun hv x hx => by
          change x ∈ v.vwl ++ [(n, d)] at hx
          change Stored (setVal _ _ _ _) _ _
          rw [stored_setVal]
          rcases List.mem_append.1 hx with hx | hx
          · exact .inr (hv x hx)
          · left; rw [List.mem_singleton.1 hx] }

theorem le_propagateValue (v : VS N D L) (n : N) (d : D) (l : L) :
    l ⊑ val (propagateValue v n d l) n d := by
  unfold propagateValue
  dsimp only
  split
  · rename_i h
    rw [← h]
    exact le_join_right _ _
  · change l ⊑ val (setVal _ _ _ _) _ _
    rw [val_setVal, if_pos rfl]
    exact le_join_right _ _

/-- Fold of extending steps: extends, and every item's postcondition survives. -/
theorem foldl_ext {ι : Type} (st : VS N D L → ι → VS N D L) (Q : VS N D L → ι → Prop)
    (hst : ∀ v i, Ext v (st v i)) (hQ : ∀ v w i, Ext v w → Q v i → Q w i)
    (hs : ∀ v i, Q (st v i) i) (l : List ι) (v : VS N D L) :
    Ext v (l.foldl st v) ∧ ∀ i ∈ l, Q (l.foldl st v) i := by
  induction l generalizing v with
  | nil => exact ⟨Ext.refl v, by simp⟩
  | cons a l ih =>
    obtain ⟨h1, h2⟩ := ih (st v a)
    refine ⟨(hst v a).trans h1, fun i hi => ?_⟩
    rcases List.mem_cons.1 hi with rfl | hi
    · exact hQ _ _ _ h1 (hs v i)
    · exact h2 i hi

/-- A value constraint `f(val(n,d)) ⊑ val(m,d')`, or `(n,d)` still has to be processed. -/
def Con (P : Problem N D F L E) (v : VS N D L) (n : N) (d : D) (f : E) (m : N) (d' : D) : Prop :=
  (n, d) ∈ v.vwl ∨ P.alg.ap f (val v n d) ⊑ val v m d'

theorem Con.ext {P : Problem N D F L E} {v w : VS N D L} {n : N} {d : D} {f : E} {m : N} {d' : D}
    (h : Ext v w) (hc : Con P v n d f m d') : Con P w n d f m d' := by
  rcases hc with hc | hc
  · exact .inl (h.wl _ hc)
  · rcases h.same n d with hs | hs
    · right
      rw [← hs]
      exact le_trans hc (h.le _ _)
    · exact .inl hs

theorem con_propagateValue (P : Problem N D F L E) (v : VS N D L) (n : N) (d : D) (f : E) (m : N)
    (d' : D) : Con P (propagateValue v m d' (P.alg.ap f (val v n d))) n d f m d' := by
  rcases (ext_propagateValue v m d' (P.alg.ap f (val v n d))).same n d with hs | hs
  · right
    rw [← hs]
    exact le_propagateValue _ _ _ _
  · exact .inl hs

theorem atStart_spec (P : Problem N D F L E) (J : AMap (D × N × D) E) (v : VS N D L) (n : N) (d : D) :
    Ext v (propagateValueAtStart P J v n d) ∧
      ∀ c ∈ P.icf.callsIn (P.icf.funOf n), ∀ en ∈ forwardLookup J d c,
        Con P (propagateValueAtStart P J v n d) n d en.2 c en.1 := by
  unfold propagateValueAtStart
  have inner := fun (c : N) (v : VS N D L) => foldl_ext
    (fun (v : VS N D L) (en : D × E) => propagateValue v c en.1 (P.alg.ap en.2 (val v n d)))
    (fun v en => Con P v n d en.2 c en.1)
    (fun v en => ext_propagateValue _ _ _ _) (fun _ _ _ h hc => hc.ext h)
    (fun v en => con_propagateValue _ _ _ _ _ _ _) (forwardLookup J d c) v
  exact foldl_ext _ (fun v c => ∀ en ∈ forwardLookup J d c, Con P v n d en.2 c en.1)
    (fun v c => (inner c v).1) (fun _ _ _ h hc en hen => (hc en hen).ext h)
    (fun v c => (inner c v).2) _ v

theorem atCall_spec (P : Problem N D F L E) (v : VS N D L) (n : N) (d : D) :
    Ext v (propagateValueAtCall P v n d) ∧
      ∀ g ∈ P.icf.callees n, ∀ d' ∈ P.callFlow n g d, ∀ sp ∈ P.icf.starts g,
        Con P (propagateValueAtCall P v n d) n d (P.callEdge n d g d') sp d' := by
  unfold propagateValueAtCall
  have i1 := fun (g : F) (d' : D) (v : VS N D L) => foldl_ext
    (fun (v : VS N D L) (sp : N) =>
      propagateValue v sp d' (P.alg.ap (P.callEdge n d g d') (val v n d)))
    (fun v sp => Con P v n d (P.callEdge n d g d') sp d')
    (fun v en => ext_propagateValue _ _ _ _) (fun _ _ _ h hc => hc.ext h)
    (fun v en => con_propagateValue _ _ _ _ _ _ _) (P.icf.starts g) v
  have i2 := fun (g : F) (v : VS N D L) => foldl_ext _
    (fun v d' => ∀ sp ∈ P.icf.starts g, Con P v n d (P.callEdge n d g d') sp d')
    (fun v d' => (i1 g d' v).1) (fun _ _ _ h hc en hen => (hc en hen).ext h)
    (fun v d' => (i1 g d' v).2) (P.callFlow n g d) v
  exact foldl_ext _
    (fun v g => ∀ d' ∈ P.callFlow n g d, ∀ sp ∈ P.icf.starts g,
      Con P v n d (P.callEdge n d g d') sp d')
    (fun v g => (i2 g v).1) (fun _ _ _ h hc d' hd' sp hsp => (hc d' hd' sp hsp).ext h)
    (fun v g => (i2 g v).2) (P.icf.callees n) v

/-- Statements treated like a start point by `valuePropagationTask`. -/
def Startish (P : Problem N D F L E) (s : St N D E) (n : N) : Prop :=
  (P.icf.isStart n || containsSeedsFor P n || s.unbal.contains n) = true

/-- All value constraints out of `(n, d)` hold, or `(n, d)` is still to be processed. -/
structure Closed (P : Problem N D F L E) (s : St N D E) (v : VS N D L) (n : N) (d : D) : Prop where
  start : Startish P s n → ∀ c ∈ P.icf.callsIn (P.icf.funOf n), ∀ en ∈ forwardLookup s.jump d c,
    Con P v n d en.2 c en.1
  call : P.icf.isCall n = true → ∀ g ∈ P.icf.callees n, ∀ d' ∈ P.callFlow n g d,
    ∀ sp ∈ P.icf.starts g, Con P v n d (P.callEdge n d g d') sp d'

theorem Closed.ext {P : Problem N D F L E} {s : St N D E} {v w : VS N D L} {n : N} {d : D}
    (h : Ext v w) (hc : Closed P s v n d) : Closed P s w n d :=
  ⟨fun h1 c hc' en hen => (hc.start h1 c hc' en hen).ext h,
   fun h1 g hg d' hd' sp hsp => (hc.call h1 g hg d' hd' sp hsp).ext h⟩

theorem task_spec (P : Problem N D F L E) (s : St N D E) (v : VS N D L) (n : N) (d : D) :
    Ext v (valuePropagationTask P s v n d) ∧ Closed P s (valuePropagationTask P s v n d) n d := by
  unfold valuePropagationTask
  dsimp only
  by_cases hs : (P.icf.isStart n || containsSeedsFor P n || s.unbal.contains n) = true
  · rw [if_pos hs]
    obtain ⟨h1, h2⟩ := atStart_spec P s.jump v n d
    by_cases hc : P.icf.isCall n = true
    · rw [if_pos hc]
      obtain ⟨h3, h4⟩ := atCall_spec P (propagateValueAtStart P s.jump v n d) n d
      exact ⟨h1.trans h3, ⟨fun _ c hc en hen => (h2 c hc en hen).ext h3, fun _ => h4⟩⟩
    · rw [if_neg hc]
      exact ⟨h1, ⟨fun _ => h2, fun h => absurd h hc⟩⟩
  · rw [if_neg hs]
    by_cases hc : P.icf.isCall n = true
    · rw [if_pos hc]
      obtain ⟨h3, h4⟩ := atCall_spec P v n d
      exact ⟨h3, ⟨fun h => absurd h hs, fun _ => h4⟩⟩
    · rw [if_neg hc]
      exact ⟨Ext.refl v, ⟨fun h => absurd h hs, fun h => absurd h hc⟩⟩

/-- Phase II(i) soundness invariant: every stored cell is closed or waiting. -/
structure VInv (P : Problem N D F L E) (s : St N D E) (v : VS N D L) : Prop where
  wst : ∀ x, x ∈ v.vwl → Stored v x.1 x.2
  clos : ∀ n d, Stored v n d → (n, d) ∈ v.vwl ∨ Closed P s v n d

theorem vInv_task {P : Problem N D F L E} {s : St N D E} {v : VS N D L} {n : N} {d : D}
    (hst : ∀ x, x ∈ v.vwl → Stored v x.1 x.2)
    (hcl : ∀ m d', Stored v m d' → (m, d') = (n, d) ∨ (m, d') ∈ v.vwl ∨ Closed P s v m d') :
    VInv P s (valuePropagationTask P s v n d) := by
  obtain ⟨h1, h2⟩ := task_spec P s v n d
  refine ⟨h1.wst hst, fun m d' hm => ?_⟩
  rcases h1.fresh m d' hm with h | h
  · rcases hcl m d' h with h | h | h
    · obtain ⟨rfl, rfl⟩ := Prod.mk.inj h
      exact .inr h2
    · exact .inl (h1.wl _ h)
    · exact .inr (h.ext h1)
  · exact .inl h

theorem vInv_step {P : Problem N D F L E} {s : St N D E} {v w : VS N D L} (hv : VInv P s v)
    (h : VStep P s v w) : VInv P s w ∧ Grow v w := by
  cases h with
  | take a b x hx =>
    have hsub : ∀ y, y ∈ a ++ b → y ∈ v.vwl := by
      intro y hy
      rw [hx]
      simp only [List.mem_append, List.mem_cons] at hy ⊢
      rcases hy with h | h
      · exact .inl h
      · exact .inr (.inr h)
    refine ⟨vInv_task (fun y hy => hv.wst y (hsub y hy)) ?_, ?_⟩
    · intro m d' hm
      rcases hv.clos m d' hm with h | h
      · rw [hx] at h
        simp only [List.mem_append, List.mem_cons] at h ⊢
        rcases h with h | h | h
        · exact .inr (.inl (.inl h))
        · exact .inl h
        · exact .inr (.inl (.inr h))
      · by_cases hmx : (m, d') = x
        · exact .inl hmx
        · have hcon : ∀ f m' d'', Con P v m d' f m' d'' → Con P { v with vwl := a ++ b } m d' f m' d'' := by
            intro f m' d'' hc
            rcases hc with hc | hc
            · left
              rw [hx] at hc
              simp only [List.mem_append, List.mem_cons] at hc ⊢
              rcases hc with h | h | h
              · exact .inl h
              · exact absurd h hmx
              · exact .inr h
            · exact .inr hc
          exact .inr (.inr ⟨fun h1 c hc en hen => hcon _ _ _ (h.start h1 c hc en hen),
            fun h1 g hg d'' hd'' sp hsp => hcon _ _ _ (h.call h1 g hg d'' hd'' sp hsp)⟩)
    · exact Grow.trans (v := { v with vwl := a ++ b }) ⟨fun _ _ => le_refl _, fun _ _ h => h⟩
        (task_spec P s _ x.1 x.2).1.toGrow

theorem submitSeed_spec {P : Problem N D F L E} {s : St N D E} {v : VS N D L} (hv : VInv P s v)
    (n : N) (q : D × L) :
    VInv P s (submitSeed P s v n q) ∧ Grow v (submitSeed P s v n q) ∧
      q.2 ⊑ val (submitSeed P s v n q) n q.1 ∧ Stored (submitSeed P s v n q) n q.1 := by
  unfold submitSeed
  generalize hu : setVal v n q.1 (join q.2 (val v n q.1)) = u
  have hg : Grow v u := by
    rw [← hu]; exact grow_setVal_join _ _ _ _ (le_join_right _ _)
  have huw : u.vwl = v.vwl := by rw [← hu]; rfl
  have hst : Stored u n q.1 := by rw [← hu, stored_setVal]; exact .inl rfl
  have hle : q.2 ⊑ val u n q.1 := by
    rw [← hu, val_setVal, if_pos rfl]; exact le_join_left _ _
  have hext := (task_spec P s u n q.1).1
  refine ⟨vInv_task ?_ ?_, hg.trans hext.toGrow, le_trans hle (hext.le _ _), hext.keep _ _ hst⟩
  · intro x hx
    rw [huw] at hx
    exact hg.keep _ _ (hv.wst x hx)
  · intro m d' hm
    by_cases hmx : (m, d') = (n, q.1)
    · exact .inl hmx
    · right
      rw [← hu, stored_setVal] at hm
      rcases hm with hm | hm
      · exact absurd hm.symm hmx
      · have hval : val u m d' = val v m d' := by
          rw [← hu, val_setVal, if_neg (fun h => hmx h.symm)]
        have hcon : ∀ f m' d'', Con P v m d' f m' d'' → Con P u m d' f m' d'' := by
          intro f m' d'' hc
          rcases hc with hc | hc
          · left; rw [huw]; exact hc
          · right; rw [hval]; exact le_trans hc (hg.le _ _)
        rcases hv.clos m d' hm with h | h
        · left; rw [huw]; exact h
        · exact .inr ⟨fun h1 c hc en hen => hcon _ _ _ (h.start h1 c hc en hen),
            fun h1 g hg' d'' hd'' sp hsp => hcon _ _ _ (h.call h1 g hg' d'' hd'' sp hsp)⟩

theorem submitInitialValues_spec (P : Problem N D F L E) (s : St N D E) :
    VInv P s (submitInitialValues P s) ∧
      ∀ n fs, (n, fs) ∈ allSeeds P s → ∀ q ∈ fs,
        q.2 ⊑ val (submitInitialValues P s) n q.1 ∧ Stored (submitInitialValues P s) n q.1 := by
  unfold submitInitialValues
  have inner : ∀ (n : N) (fs : List (D × L)) (v : VS N D L), VInv P s v →
      VInv P s (fs.foldl (fun v q => submitSeed P s v n q) v) ∧
      Grow v (fs.foldl (fun v q => submitSeed P s v n q) v) ∧
      ∀ q ∈ fs, q.2 ⊑ val (fs.foldl (fun v q => submitSeed P s v n q) v) n q.1 ∧
        Stored (fs.foldl (fun v q => submitSeed P s v n q) v) n q.1 := by
    intro n fs
    induction fs with
    | nil => intro v hv; exact ⟨hv, Grow.refl v, by simp⟩
    | cons q fs ih =>
      intro v hv
      obtain ⟨h1, h2, h3, h4⟩ := submitSeed_spec hv n q
      obtain ⟨h5, h6, h7⟩ := ih _ h1
      refine ⟨h5, h2.trans h6, fun q' hq' => ?_⟩
      rcases List.mem_cons.1 hq' with rfl | hq'
      · exact ⟨le_trans h3 (h6.le _ _), h6.keep _ _ h4⟩
      · exact h7 q' hq'
  have outer : ∀ (l : List (N × List (D × L))) (v : VS N D L), VInv P s v →
      VInv P s (l.foldl (fun v p => p.2.foldl (fun v q => submitSeed P s v p.1 q) v) v) ∧
      Grow v (l.foldl (fun v p => p.2.foldl (fun v q => submitSeed P s v p.1 q) v) v) ∧
      ∀ p ∈ l, ∀ q ∈ p.2,
        q.2 ⊑ val (l.foldl (fun v p => p.2.foldl (fun v q => submitSeed P s v p.1 q) v) v) p.1 q.1 ∧
        Stored (l.foldl (fun v p => p.2.foldl (fun v q => submitSeed P s v p.1 q) v) v) p.1 q.1 := by
    intro l
    induction l with
    | nil => intro v hv; exact ⟨hv, Grow.refl v, by simp⟩
    | cons p l ih =>
      intro v hv
      obtain ⟨h1, h2, h3⟩ := inner p.1 p.2 v hv
      obtain ⟨h5, h6, h7⟩ := ih _ h1
      refine ⟨h5, h2.trans h6, fun p' hp' q hq => ?_⟩
      rcases List.mem_cons.1 hp' with rfl | hp'
      · obtain ⟨h8, h9⟩ := h3 q hq
        exact ⟨le_trans h8 (h6.le _ _), h6.keep _ _ h9⟩
      · exact h7 p' hp' q hq
  have h0 : VInv P s ({ tab := [], vwl := [] } : VS N D L) :=
    ⟨by simp, by rintro n d ⟨l, hl⟩; simp at hl⟩
  obtain ⟨h1, _, h3⟩ := outer (allSeeds P s) _ h0
  exact ⟨h1, fun n fs h q hq => h3 (n, fs) h q hq⟩

theorem vReach_spec {P : Problem N D F L E} {s : St N D E} {v : VS N D L} (h : VReach P s v) :
    VInv P s v ∧ ∀ n d l, IsSeed P n d l → l ⊑ val v n d ∧ Stored v n d := by
  induction h with
  | init =>
    obtain ⟨h1, h2⟩ := submitInitialValues_spec P s
    refine ⟨h1, fun n d l h => ?_⟩
    obtain ⟨fs, h3, h4⟩ := mem_seedsWithZero.2 h
    exact h2 n fs (List.mem_append_left _ h3) (d, l) h4
  | step _ h ih =>
    obtain ⟨h1, h2⟩ := vInv_step ih.1 h
    refine ⟨h1, fun n d l hs => ?_⟩
    obtain ⟨h3, h4⟩ := ih.2 n d l hs
    exact ⟨le_trans h3 (h2.le _ _), h2.keep _ _ h4⟩

/-! ## Values dominate runs -/

theorem containsSeedsFor_of_isSeed {P : Problem N D F L E} {n : N} {d : D} {l : L}
    (h : IsSeed P n d l) : containsSeedsFor P n = true := by
  obtain ⟨fs, h, _⟩ := h
  unfold containsSeedsFor
  rw [List.contains_iff_mem]
  exact List.mem_map.2 ⟨_, h, rfl⟩

theorem ne_top_of_le {x y : L} (h : x ⊑ y) (hx : x ≠ top) : y ≠ top := by
  rintro rfl
  exact hx (eq_top_of_le_top h)

/-- Final Phase II(i) facts. -/
structure VFinal (P : Problem N D F L E) (s : St N D E) (v : VS N D L) : Prop where
  seed : ∀ n d l, IsSeed P n d l → l ⊑ val v n d
  start : ∀ n d, Stored v n d → Startish P s n → ∀ c ∈ P.icf.callsIn (P.icf.funOf n),
    ∀ d' e, s.jump.get (d, c, d') = some e → P.alg.ap e (val v n d) ⊑ val v c d'
  call : ∀ n d, Stored v n d → P.icf.isCall n = true → ∀ g ∈ P.icf.callees n,
    ∀ d' ∈ P.callFlow n g d, ∀ sp ∈ P.icf.starts g,
      P.alg.ap (P.callEdge n d g d') (val v n d) ⊑ val v sp d'

theorem vFinal {P : Problem N D F L E} {s : St N D E} {v : VS N D L} (hn : s.jump.NodupKeys)
    (h : VReach P s v) (hw : v.vwl = []) : VFinal P s v := by
  obtain ⟨h1, h2⟩ := vReach_spec h
  have hcl : ∀ n d, Stored v n d → Closed P s v n d := by
    intro n d hs
    rcases h1.clos n d hs with h | h
    · rw [hw] at h; simp at h
    · exact h
  have hcon : ∀ n d f m d', Con P v n d f m d' → P.alg.ap f (val v n d) ⊑ val v m d' := by
    intro n d f m d' h
    rcases h with h | h
    · rw [hw] at h; simp at h
    · exact h
  refine ⟨fun n d l h => (h2 n d l h).1, ?_, ?_⟩
  · intro n d hs hst c hc d' e hj
    exact hcon _ _ _ _ _ ((hcl n d hs).start hst c hc (d', e) ((mem_forwardLookup hn).2 hj))
  · intro n d hs hc g hg d' hd' sp hsp
    exact hcon _ _ _ _ _ ((hcl n d hs).call hc g hg d' hd' sp hsp)

theorem linked_val {P : Problem N D F L E} {ok : D → D → E → Prop} (hA : P.alg.SoundFor ok)
    (hP : P.OkEdgesFor ok) (hwf : P.icf.WFV) (hnt : P.NoTop (AnyPair ok)) {s : St N D E}
    (hi : Inv P ok s) {v : VS N D L} (hv : VFinal P s v) {stk : List N} {sp : N} {d : D} {x : L}
    (h : Linked P s.jump stk sp d x) :
    x ≠ top ∧ x ⊑ val v sp d ∧ Startish P s sp := by
  induction h with
  | nil h0 =>
    refine ⟨hnt.seed _ _ _ h0, hv.seed _ _ _ h0, ?_⟩
    unfold Startish
    simp [containsSeedsFor_of_isSeed h0]
  | @cons stk c d4 g sp d d1 e x sp' hlk hj hfun hc hg hs hsp hd ih =>
    obtain ⟨h1, h2, h3⟩ := ih
    have hoke := hi.okJ _ _ hj
    have hokc := hP.call _ _ _ _ hc hg hd
    have h4 : P.alg.ap e x ⊑ val v c d4 :=
      le_trans (hA.mono _ _ _ hoke _ _ h1 h2) (hv.start _ _ (stored_of_ne_top (ne_top_of_le h2 h1)) h3 c
        ((hwf.callsIn_iff _ _).2 ⟨hc, hfun.symm⟩) _ _ hj)
    have h5 := hnt.ap _ (AnyPair.mk hoke) _ h1
    refine ⟨hnt.ap _ (AnyPair.mk hokc) _ h5, ?_, ?_⟩
    · exact le_trans (hA.mono _ _ _ hokc _ _ h5 h4)
        (hv.call _ _ (stored_of_ne_top (ne_top_of_le h4 h5)) hc _ hg _ hd _ hsp)
    · have := (hwf.isStart_iff sp').2 (by rw [hwf.start_fun _ _ hsp]; exact hsp)
      unfold Startish
      simp [this]

/-- Values of runs at call sites (for any seeds). -/
theorem call_val {P : Problem N D F L E} {ok : D → D → E → Prop} (hA : P.alg.SoundFor ok)
    (hP : P.OkEdgesFor ok) (hwf : P.icf.WFV) (hnt : P.NoTop (AnyPair ok)) {s : St N D E}
    (hi : Inv P ok s) {v : VS N D L} (hv : VFinal P s v) {c : Cfg N D L}
    (h : Explained P s.jump c) (hc : P.icf.isCall c.n = true) :
    c.v ⊑ val v c.n c.d ∧ Stored v c.n c.d := by
  obtain ⟨d1, e, sp, x, hj, hle, hlk, hfun⟩ := h
  obtain ⟨h1, h2, h3⟩ := linked_val hA hP hwf hnt hi hv hlk
  have hoke := hi.okJ _ _ hj
  have h4 : P.alg.ap e x ⊑ val v c.n c.d :=
    le_trans (hA.mono _ _ _ hoke _ _ h1 h2) (hv.start _ _ (stored_of_ne_top (ne_top_of_le h2 h1)) h3 _
      ((hwf.callsIn_iff _ _).2 ⟨hc, hfun.symm⟩) _ _ hj)
  exact ⟨le_trans hle h4, stored_of_ne_top (ne_top_of_le h4 (hnt.ap _ (AnyPair.mk hoke) _ h1))⟩

/-! ## Phase II(ii) -/

theorem foldl_grow {ι : Type} (st : VS N D L → ι → VS N D L) (Q : VS N D L → ι → Prop)
    (hst : ∀ v i, Grow v (st v i)) (hQ : ∀ v w i, Grow v w → Q v i → Q w i)
    (l : List ι) (v : VS N D L) (hs : ∀ i ∈ l, ∀ w, Grow v w → Q (st w i) i) :
    Grow v (l.foldl st v) ∧ ∀ i ∈ l, Q (l.foldl st v) i := by
  induction l generalizing v with
  | nil => exact ⟨Grow.refl v, by simp⟩
  | cons a l ih =>
    obtain ⟨h1, h2⟩ := ih (st v a)
      (fun i hi w hw => hs i (List.mem_cons_of_mem _ hi) w ((hst v a).trans hw))
    refine ⟨(hst v a).trans h1, fun i hi => ?_⟩
    rcases List.mem_cons.1 hi with rfl | hi
    · exact hQ _ _ _ h1 (hs i List.mem_cons_self v (Grow.refl v))
    · exact h2 i hi

theorem valueComputation_spec {P : Problem N D F L E} {ok : D → D → E → Prop}
    (hmono : ∀ d1 d2 f, ok d1 d2 f → ∀ x y, x ≠ top → x ⊑ y → P.alg.ap f x ⊑ P.alg.ap f y) {J : AMap (D × N × D) E}
    (hn : J.NodupKeys) (hok : ∀ k e, J.get k = some e → ok k.1 k.2.2 e) (v : VS N D L) :
    Grow v (valueComputationTask P J v) ∧
    ∀ n ∈ P.icf.nonCallStart, ∀ sp ∈ P.icf.starts (P.icf.funOf n), ∀ d1 d2 e,
      J.get (d1, n, d2) = some e →
      (val v sp d1 ≠ top → P.alg.ap e (val v sp d1) ⊑ val (valueComputationTask P J v) n d2) ∧
      Stored (valueComputationTask P J v) n d2 := by
  unfold valueComputationTask
  let Q := fun (n sp : N) (w : VS N D L) (c : D × D × E) =>
    (val v sp c.1 ≠ top → P.alg.ap c.2.2 (val v sp c.1) ⊑ val w n c.2.1) ∧ Stored w n c.2.1
  have hQ : ∀ n sp, ∀ w w' c, Grow w w' → Q n sp w c → Q n sp w' c := fun n sp w w' c hg hq =>
    ⟨fun ht => le_trans (hq.1 ht) (hg.le _ _), hg.keep _ _ hq.2⟩
  have hst : ∀ (n sp : N) (w : VS N D L) (c : D × D × E), Grow w (setVal w n c.2.1
      (join (val w n c.2.1) (P.alg.ap c.2.2 (val w sp c.1)))) :=
    fun n sp w c => grow_setVal_join _ _ _ _ (le_join_left _ _)
  have i1 : ∀ (n sp : N) (u : VS N D L), Grow v u →
      Grow u ((lookupByTarget J n).foldl (fun v c => setVal v n c.2.1
          (join (val v n c.2.1) (P.alg.ap c.2.2 (val v sp c.1)))) u) ∧
      ∀ c ∈ lookupByTarget J n, Q n sp ((lookupByTarget J n).foldl (fun v c => setVal v n c.2.1
          (join (val v n c.2.1) (P.alg.ap c.2.2 (val v sp c.1)))) u) c := by
    intro n sp u hu
    refine foldl_grow _ (Q n sp) (hst n sp) (hQ n sp) _ u ?_
    rintro ⟨d1, d2, e⟩ hc w hw
    have hoke := hok _ _ ((mem_lookupByTarget hn).1 hc)
    refine ⟨fun ht => ?_, (stored_setVal _ _ _ _ _ _).2 (.inl rfl)⟩
    rw [val_setVal, if_pos rfl]
    exact le_trans (hmono _ _ _ hoke _ _ ht ((hu.trans hw).le sp d1)) (le_join_right _ _)
  have i1g : ∀ (n sp : N) (u : VS N D L),
      Grow u ((lookupByTarget J n).foldl (fun v c => setVal v n c.2.1
          (join (val v n c.2.1) (P.alg.ap c.2.2 (val v sp c.1)))) u) := fun n sp u =>
    (foldl_grow _ (fun _ _ => True) (hst n sp) (fun _ _ _ _ _ => trivial) _ u
      (fun _ _ _ _ => trivial)).1
  have i2 : ∀ (n : N) (u : VS N D L), Grow v u →
      Grow u ((P.icf.starts (P.icf.funOf n)).foldl (fun v sp => (lookupByTarget J n).foldl
        (fun v c => setVal v n c.2.1
          (join (val v n c.2.1) (P.alg.ap c.2.2 (val v sp c.1)))) v) u) ∧
      ∀ sp ∈ P.icf.starts (P.icf.funOf n), ∀ c ∈ lookupByTarget J n,
        Q n sp ((P.icf.starts (P.icf.funOf n)).foldl (fun v sp => (lookupByTarget J n).foldl
        (fun v c => setVal v n c.2.1
          (join (val v n c.2.1) (P.alg.ap c.2.2 (val v sp c.1)))) v) u) c := by
    intro n u hu
    exact foldl_grow _ (fun w sp => ∀ c ∈ lookupByTarget J n, Q n sp w c)
      (fun w sp => i1g n sp w) (fun w w' sp hg hq c hc => hQ n sp w w' c hg (hq c hc)) _ u
      (fun sp _ w hw => (i1 n sp w (hu.trans hw)).2)
  have i2g : ∀ (n : N) (u : VS N D L),
      Grow u ((P.icf.starts (P.icf.funOf n)).foldl (fun v sp => (lookupByTarget J n).foldl
        (fun v c => setVal v n c.2.1
          (join (val v n c.2.1) (P.alg.ap c.2.2 (val v sp c.1)))) v) u) := fun n u =>
    (foldl_grow _ (fun _ _ => True) (fun w sp => i1g n sp w) (fun _ _ _ _ _ => trivial) _ u
      (fun _ _ _ _ => trivial)).1
  obtain ⟨h1, h2⟩ := foldl_grow _
    (fun w n => ∀ sp ∈ P.icf.starts (P.icf.funOf n), ∀ c ∈ lookupByTarget J n, Q n sp w c)
    (fun w n => i2g n w) (fun w w' n hg hq sp hsp c hc => hQ n sp w w' c hg (hq sp hsp c hc))
    P.icf.nonCallStart v (fun n _ w hw => (i2 n w hw).2)
  refine ⟨h1, fun n hnn sp hsp d1 d2 e hj => ?_⟩
  exact h2 n hnn sp hsp (d1, d2, e) ((mem_lookupByTarget hn).2 hj)

/-- Values of runs are below the final table entries, and the entries exist. -/
theorem solved_soundFor {P : Problem N D F L E} {ok : D → D → E → Prop} (hA : P.alg.SoundFor ok)
    (hP : P.OkEdgesFor ok) (hwf : P.icf.WFV) (hnt : P.NoTop (AnyPair ok)) (hs : SeedsAtStart P)
    {s : St N D E} {w : VS N D L} (h : Solved P s w) {n : N} {d : D} {x : L}
    (hr : RunVal P n d x) : x ⊑ val w n d ∧ Stored w n d := by
  cases h with
  | @intro v hre hw hv hvw =>
  have hi := inv_reach hA.okClosed hP hwf.toWF hre
  have hc := covInv_reach hA hP hwf.toWF hre
  have hf := vFinal hi.nodupJ hv hvw
  obtain ⟨hg, hfin⟩ := valueComputation_spec (v := v) (P := P) hA.mono hi.nodupJ hi.okJ
  obtain ⟨n0, d0, v0, stk, h0, hrun⟩ := hr
  have hex : ∀ c, RSteps P ⟨[], n0, d0, v0⟩ c → Explained P s.jump c := fun c hc' =>
    explained_run hA (.inl hnt) hP hwf.toWF hi hc hw (explained_seed hA hc hw h0) (mVal_seed (.inl hnt) h0) hc'
  have hE := hex _ hrun
  by_cases hcall : P.icf.isCall n = true
  · obtain ⟨h1, h2⟩ := call_val hA hP hwf hnt hi hf hE hcall
    exact ⟨le_trans h1 (hg.le _ _), hg.keep _ _ h2⟩
  · by_cases hst : P.icf.isStart n = true
    · -- start point: entered by a seed or a call
      have hst' := (hwf.isStart_iff n).1 hst
      have key : x ⊑ val v n d ∧ x ≠ top := by
        cases hrun with
        | refl => exact ⟨hf.seed _ _ _ h0, hnt.seed _ _ _ h0⟩
        | tail hpre hstep =>
          have hEp := hex _ hpre
          cases hstep with
          | normal _ h2 _ => exact absurd h2 ((hwf.start_no_pred _ _ hst').1 _)
          | ret _ _ h3 _ => exact absurd h3 ((hwf.start_no_pred _ _ hst').2 _)
          | callToRet _ h2 _ => exact absurd h2 ((hwf.start_no_pred _ _ hst').2 _)
          | summary _ _ _ h4 _ => exact absurd h4 ((hwf.start_no_pred _ _ hst').2 _)
          | call h1 h2 h3 h4 h5 =>
            obtain ⟨h6, h7⟩ := call_val hA hP hwf hnt hi hf hEp h1
            have hokc := hP.call _ _ _ _ h1 h2 h5
            -- values along runs never become top
            have hnt' : ∀ b : Cfg N D L, RSteps P ⟨[], n0, d0, v0⟩ b → b.v ≠ top := by
              intro b hab
              induction hab with
              | refl => exact hnt.seed _ _ _ h0
              | tail hp' hs' ih =>
                have hstk := (hex _ hp').stack hwf.toWF
                cases hs' with
                | normal q1 q2 q3 => exact hnt.ap _ (AnyPair.mk (hP.normal _ _ _ _ q1 q2 q3)) _ ih
                | call q1 q2 _ _ q5 => exact hnt.ap _ (AnyPair.mk (hP.call _ _ _ _ q1 q2 q5)) _ ih
                | ret _ q2 q3 q4 => exact hnt.ap _ (AnyPair.mk (hP.ret _ _ _ _ _ _ (.inr (hstk _ _ rfl)) q2 rfl q3 q4)) _ ih
                | callToRet q1 q2 q3 => exact hnt.ap _ (AnyPair.mk (hP.ctr _ _ _ _ q1 q2 q3)) _ ih
                | summary _ _ q3 q4 q5 => exact hnt.ap _ (AnyPair.mk (hP.sum _ _ _ _ _ _ q3 q4 q5)) _ ih
            have hvp := hnt' _ hpre
            exact ⟨le_trans (hA.mono _ _ _ hokc _ _ hvp h6) (hf.call _ _ h7 h1 _ h2 _ h5 _ h4), hnt.ap _ (AnyPair.mk hokc) _ hvp⟩
      exact ⟨le_trans key.1 (hg.le _ _),
        hg.keep _ _ (stored_of_ne_top (ne_top_of_le key.1 key.2))⟩
    · obtain ⟨d1, e, sp, y, hj, hle, hlk, hfun⟩ := hE
      obtain ⟨h1, h2, h3⟩ := linked_val hA hP hwf hnt hi hf hlk
      have hsp : sp ∈ P.icf.starts (P.icf.funOf n) := by
        have hsp' : sp ∈ P.icf.starts (P.icf.funOf sp) := by
          cases hlk with
          | nil hseed => exact isSeed_start hs hseed
          | cons _ _ _ _ _ _ q _ => rw [hwf.start_fun _ _ q]; exact q
        rw [hfun] at hsp'
        exact hsp'
      obtain ⟨h4, h5⟩ := hfin n ((hwf.ncs_iff n).2 ⟨by simpa using hcall, by simpa using hst⟩) sp hsp
        d1 d e hj
      exact ⟨le_trans hle (le_trans (hA.mono _ _ _ (hi.okJ _ _ hj) _ _ h1 h2) (h4 (ne_top_of_le h2 h1))), h5⟩

theorem solved_sound {P : Problem N D F L E} {ok : E → Prop} (hA : P.alg.Sound ok)
    (hP : P.OkEdges ok) (hwf : P.icf.WFV) (hnt : P.NoTop ok) (hs : SeedsAtStart P)
    {s : St N D E} {w : VS N D L} (h : Solved P s w) {n : N} {d : D} {x : L}
    (hr : RunVal P n d x) : x ⊑ val w n d ∧ Stored w n d :=
  solved_soundFor hA.toFor hP.toFor hwf hnt.toFor hs h hr

end
end Phasar.IDE
