import Verif.IDE.Phase2
/-!
# Unbalanced returns: coverage invariant
-/
set_option linter.unusedSectionVars false
namespace Phasar.IDE
open Phasar JoinLat

section
variable {N D F L E : Type} [DecidableEq N] [DecidableEq D] [JoinLat L]

/-- No call of the function of `n` is known that passes `d1`. -/
def NoInc (P : Problem N D F L E) (s : St N D E) (d1 : D) (n : N) : Prop :=
  ∀ sp ∈ P.icf.starts (P.icf.funOf n), ∀ c, (incomingAt s sp d1).get c = none

theorem noInc_incMap {P : Problem N D F L E} {s : St N D E} {d1 : D} {n : N} (h : NoInc P s d1 n) :
    incMap P s d1 n = [] := by
  cases hm : incMap P s d1 n with
  | nil => rfl
  | cons en l =>
    obtain ⟨sp, hsp, hmem⟩ := mem_incMap (P := P) (s := s) (d1 := d1) (n := n) (en := en)
      (by rw [hm]; simp)
    have := h sp hsp en.1
    cases hg : AMap.get (incomingAt s sp d1) en.1 with
    | none =>
      exfalso
      have key : ∀ (m : AMap N (List D)) (a : N × List D), a ∈ m → m.get a.1 ≠ none := by
        intro m
        induction m with
        | nil => intro a ha; simp at ha
        | cons b m ih =>
          intro a ha
          simp only [AMap.get]
          split
          · simp
          · rename_i hne
            rcases List.mem_cons.1 ha with rfl | ha
            · exact absurd rfl hne
            · exact ih a ha
      exact key _ _ hmem hg
    | some v => rw [this] at hg; cases hg

/-- Exit edges whose source fact no known call passes in are covered at all return sites. -/
def UInv (P : Problem N D F L E) (s : St N D E) : Prop :=
  P.followReturnsPastSeeds = true →
  ∀ d1 n d2 e, s.jump.get (d1, n, d2) = some e → P.icf.isCall n = false → P.icf.isExit n = true →
    (∀ sp ∈ P.icf.starts (P.icf.funOf n), ∀ c d4, ¬ HasInc s.incoming sp d1 c d4) →
    ∀ c r d5, c ∈ P.icf.callers (P.icf.funOf n) → r ∈ P.icf.retSites c →
      d5 ∈ P.retFlow c (P.icf.funOf n) n r d2 →
      Cov P.alg s.jump s.wl ⟨P.zero, r, d5⟩ (P.alg.extend e (P.retEdge c (P.icf.funOf n) n d2 r d5))

/-- Known call sites have at least one fact. -/
def IncNonempty (inc : AMap (N × D) (AMap N (List D))) : Prop :=
  ∀ k m c ds, inc.get k = some m → m.get c = some ds → ds ≠ []

theorem insertSet_ne_nil {A : Type} [DecidableEq A] (l : List A) (a : A) : insertSet l a ≠ [] := by
  unfold insertSet
  split
  · rename_i h; intro h'; rw [h'] at h; simp at h
  · simp

theorem incNonempty_addIncoming {inc : AMap (N × D) (AMap N (List D))} (h : IncNonempty inc)
    (sp : N) (d3 : D) (n : N) (d2 : D) : IncNonempty (addIncoming inc sp d3 n d2) := by
  intro k m c ds hk hc
  unfold addIncoming at hk
  simp only [AMap.get_set] at hk
  split at hk
  · rename_i hkk
    cases hk
    rw [AMap.get_set] at hc
    split at hc
    · cases hc; exact insertSet_ne_nil _ _
    · cases hg : inc.get (sp, d3) with
      | none => simp [hg] at hc
      | some m' => simp only [hg] at hc; exact h _ _ _ _ hg hc
  · exact h _ _ _ _ hk hc

theorem incNonempty_foldl {n : N} {d2 : D} (l : List (N × D)) :
    ∀ {inc : AMap (N × D) (AMap N (List D))}, IncNonempty inc →
    IncNonempty (l.foldl (fun inc p => addIncoming inc p.1 p.2 n d2) inc) := by
  induction l with
  | nil => intro inc h; exact h
  | cons a l ih => intro inc h; exact ih (incNonempty_addIncoming h _ _ _ _)

theorem incNonempty_reach {P : Problem N D F L E} {s : St N D E} (h : Reach P s) :
    IncNonempty s.incoming := by
  induction h with
  | init => intro k m c ds h; simp [init] at h
  | step _ h ih =>
    cases h with
    | take a b x hx =>
      unfold propagate
      dsimp only
      split
      · exact ih
      · rw [task_incoming]
        split
        · exact incNonempty_foldl _ ih
        · exact ih

theorem noInc_of_noHas {P : Problem N D F L E} {s : St N D E} (hne : IncNonempty s.incoming)
    {d1 : D} {n : N}
    (h : ∀ sp ∈ P.icf.starts (P.icf.funOf n), ∀ c d4, ¬ HasInc s.incoming sp d1 c d4) :
    NoInc P s d1 n := by
  intro sp hsp c
  unfold incomingAt
  cases hg : s.incoming.get (sp, d1) with
  | none => rfl
  | some m =>
    cases hc : m.get c with
    | none => rfl
    | some ds =>
      cases hds : ds with
      | nil => exact absurd hds (hne _ _ _ _ hg hc)
      | cons d4 ds' => exact absurd ⟨m, ds, hg, hc, by rw [hds]; simp⟩ (h sp hsp c d4)

theorem uInv_step {P : Problem N D F L E} {ok : E → Prop} (hA : P.alg.Sound ok)
    {s t : St N D E} (hi : Inv P (fun _ _ => ok) s) (hne : IncNonempty s.incoming) (hc : UInv P s)
    (h : SStep P s t) : UInv P t := by
  cases h with
  | take a b x hx =>
  obtain ⟨⟨d1, n, d2⟩, f⟩ := x
  have hfok : ok f := hi.okW ⟨d1, n, d2⟩ f (by rw [hx]; simp)
  unfold propagate
  dsimp only
  have hj0 : jumpFunction P { s with wl := a ++ b } d1 n d2 = jumpFunction P s d1 n d2 := rfl
  rw [hj0]
  generalize hf' : P.alg.combine (jumpFunction P s d1 n d2) f = f'
  have hf'ok : ok f' := by
    rw [← hf']
    exact ok_combine_jump hA.okClosed.toFor hi.okJ rfl hfok
  have hge_f : FLe P.alg f f' := by
    intro y
    rw [← hf']
    unfold jumpFunction
    cases hg : s.jump.get (d1, n, d2) with
    | none => exact hA.first_ge _ hfok y
    | some e => exact hA.combine_ge_right _ _ (hi.okJ _ _ hg) hfok y
  have hge_e : ∀ e, s.jump.get (d1, n, d2) = some e → FLe P.alg e f' := by
    intro e hg y
    rw [← hf', jumpFunction_of_get hg]
    exact hA.combine_ge_left _ _ (hi.okJ _ _ hg) hfok y
  split
  · rename_i heq
    obtain ⟨e, hg⟩ : ∃ e, s.jump.get (d1, n, d2) = some e := by
      cases hg : s.jump.get (d1, n, d2) with
      | none =>
        simp only [jumpFunction, hg] at heq
        rw [hA.not_top _ hf'ok] at heq
        cases heq
      | some e => exact ⟨e, rfl⟩
    have hfe : FLe P.alg f e := by
      intro y
      rw [jumpFunction_of_get hg] at heq
      have := hA.eq_sound _ _ hf'ok (hi.okJ _ _ hg) heq y
      rw [← this]
      exact hge_f y
    intro hfr e1 m e2 e' hk h1 h2 h3 c r d5 h4 h5 h6
    refine (hc hfr e1 m e2 e' hk h1 h2 h3 c r d5 h4 h5 h6).mono
      (fun k e hk => ⟨e, hk, FLe.refl _ _⟩) ?_
    intro q g' hq
    rw [hx] at hq
    simp only [List.mem_append, List.mem_cons, Prod.mk.injEq] at hq ⊢
    rcases hq with hq | ⟨rfl, rfl⟩ | hq
    · exact .inl (.inl hq)
    · exact .inr ⟨e, hg, hfe⟩
    · exact .inl (.inr hq)
  · generalize hu : ({ s with wl := a ++ b, jump := s.jump.set (d1, n, d2) f' } : St N D E) = u
    have huJ : u.jump = s.jump.set (d1, n, d2) f' := by rw [← hu]
    have huI : u.incoming = s.incoming := by rw [← hu]
    have huW : u.wl = a ++ b := by rw [← hu]
    have hju : jumpFunction P u d1 n d2 = f' := jumpFunction_of_get (by rw [huJ]; simp)
    generalize ht : pathEdgeProcessingTask P u d1 n d2 = t
    have htJ : t.jump = s.jump.set (d1, n, d2) f' := by rw [← ht, task_jump, huJ]
    have hincmono : ∀ sp d c e2, HasInc s.incoming sp d c e2 → HasInc t.incoming sp d c e2 := by
      intro sp d c e2 h
      rw [← ht, task_incoming, huI]
      split
      · rw [hasInc_foldl]; exact .inl h
      · exact h
    intro hfr e1 m e2 e' hk h1 h2 h3 c r d5 h4 h5 h6
    have h3' : ∀ sp ∈ P.icf.starts (P.icf.funOf m), ∀ c d4, ¬ HasInc s.incoming sp e1 c d4 :=
      fun sp hsp c d4 h => h3 sp hsp c d4 (hincmono _ _ _ _ h)
    rw [htJ, AMap.get_set] at hk
    split at hk
    · rename_i hkk
      cases hk
      simp only [Prod.mk.injEq] at hkk
      obtain ⟨rfl, rfl, rfl⟩ := hkk
      right
      refine ⟨_, ?_, FLe.refl _ _⟩
      rw [← ht, mem_task_wl, hju]
      refine .inr (.unbal hfr h1 h2 (noInc_incMap (noInc_of_noHas ?_ ?_)) h4 h5 h6)
      · rw [huI]; exact hne
      · rw [huI]; exact h3'
    · refine (hc hfr e1 m e2 e' hk h1 h2 h3' c r d5 h4 h5 h6).mono ?_ ?_
      · intro k e hk
        rw [htJ, AMap.get_set]
        split
        · rename_i hkk; subst hkk; exact ⟨f', rfl, hge_e _ hk⟩
        · exact ⟨e, hk, FLe.refl _ _⟩
      · intro q g' hq
        rw [hx] at hq
        simp only [List.mem_append, List.mem_cons, Prod.mk.injEq] at hq
        have hin : ∀ y, y ∈ a ++ b → y ∈ t.wl := by
          intro y hy
          rw [← ht, mem_task_wl, huW]
          exact .inl hy
        rcases hq with hq | ⟨rfl, rfl⟩ | hq
        · exact .inl (hin _ (List.mem_append_left _ hq))
        · exact .inr ⟨f', by rw [htJ]; simp, hge_f⟩
        · exact .inl (hin _ (List.mem_append_right _ hq))

theorem uInv_reach {P : Problem N D F L E} {ok : E → Prop} (hA : P.alg.Sound ok)
    (hP : P.OkEdges ok) (hwf : P.icf.WF) {s : St N D E} (h : Reach P s) : UInv P s := by
  induction h with
  | init => intro _ d1 n d2 e h; simp [init] at h
  | step hr h ih =>
    exact uInv_step hA (inv_reach hA.okClosed.toFor hP.toFor hwf hr) (incNonempty_reach hr) ih h

/-! ## Recording of the unbalanced return sites -/

theorem mem_foldl_insertSet {A B : Type} [DecidableEq A] (f : B → A) (l : List B) :
    ∀ (u : List A) (a : A), a ∈ l.foldl (fun u p => insertSet u (f p)) u ↔ a ∈ u ∨ ∃ p ∈ l, f p = a := by
  induction l with
  | nil => intro u a; simp
  | cons b l ih =>
    intro u a
    rw [List.foldl_cons, ih, mem_insertSet]
    constructor
    · rintro ((h | h) | ⟨p, hp, h⟩)
      · exact .inl h
      · exact .inr ⟨b, List.mem_cons_self, h.symm⟩
      · exact .inr ⟨p, List.mem_cons_of_mem _ hp, h⟩
    · rintro (h | ⟨p, hp, h⟩)
      · exact .inl (.inl h)
      · rcases List.mem_cons.1 hp with rfl | hp
        · exact .inl (.inr h.symm)
        · exact .inr ⟨p, hp, h⟩

/-- The unbalanced return sites after processing one path edge. -/
theorem mem_task_unbal {P : Problem N D F L E} {s : St N D E} {d1 : D} {n : N} {d2 : D} {r : N} :
    r ∈ (pathEdgeProcessingTask P s d1 n d2).unbal ↔ r ∈ s.unbal ∨
      (P.followReturnsPastSeeds = true ∧ P.icf.isCall n = false ∧ P.icf.isExit n = true ∧
        incMap P s d1 n = [] ∧ ∃ c ∈ P.icf.callers (P.icf.funOf n), r ∈ P.icf.retSites c ∧
          ∃ d5, d5 ∈ P.retFlow c (P.icf.funOf n) n r d2) := by
  unfold pathEdgeProcessingTask
  by_cases hc : P.icf.isCall n = true
  · simp [hc, processCall]
  · have hc' : P.icf.isCall n = false := by simpa using hc
    by_cases hx : P.icf.isExit n = true
    · have key : r ∈ (processExit P s d1 n d2).unbal ↔ r ∈ s.unbal ∨
          (P.followReturnsPastSeeds = true ∧ incMap P s d1 n = [] ∧
            ∃ c ∈ P.icf.callers (P.icf.funOf n), r ∈ P.icf.retSites c ∧
              ∃ d5, d5 ∈ P.retFlow c (P.icf.funOf n) n r d2) := by
        unfold processExit
        by_cases h : (P.followReturnsPastSeeds && (incMap P s d1 n).isEmpty) = true
        · simp only [h, if_true]
          simp only [Bool.and_eq_true, List.isEmpty_iff] at h
          rw [mem_foldl_insertSet]
          refine or_congr Iff.rfl ?_
          constructor
          · rintro ⟨p, hp, rfl⟩
            obtain ⟨c, r, d5, h1, h2, h3, h4⟩ := mem_unbalancedPushes.1 hp
            subst h4
            exact ⟨h.1, h.2, c, h1, h2, d5, h3⟩
          · rintro ⟨_, _, c, h1, h2, d5, h3⟩
            exact ⟨_, mem_unbalancedPushes.2 ⟨c, r, d5, h1, h2, h3, rfl⟩, rfl⟩
        · simp only [h, Bool.false_eq_true, if_false]
          simp only [Bool.and_eq_true, List.isEmpty_iff] at h
          constructor
          · exact .inl
          · rintro (h1 | ⟨h1, h2, _⟩)
            · exact h1
            · exact absurd ⟨h1, h2⟩ h
      simp only [hc', hx, if_true, Bool.false_eq_true, if_false, true_and]
      by_cases he : (P.icf.succs n).isEmpty = true
      · simp only [he, if_true]; exact key
      · simp only [he, Bool.false_eq_true, if_false, processNormalFlow]; exact key
    · by_cases he : (P.icf.succs n).isEmpty = true <;> simp [hc', hx, he, processNormalFlow]

/-- Return sites to which an exit edge without known call returns are recorded. -/
def URec (P : Problem N D F L E) (s : St N D E) : Prop :=
  P.followReturnsPastSeeds = true →
  ∀ d1 n d2 e, s.jump.get (d1, n, d2) = some e → P.icf.isCall n = false → P.icf.isExit n = true →
    (∀ sp ∈ P.icf.starts (P.icf.funOf n), ∀ c d4, ¬ HasInc s.incoming sp d1 c d4) →
    ∀ c r d5, c ∈ P.icf.callers (P.icf.funOf n) → r ∈ P.icf.retSites c →
      d5 ∈ P.retFlow c (P.icf.funOf n) n r d2 → r ∈ s.unbal

theorem uRec_reach {P : Problem N D F L E} {s : St N D E} (h : Reach P s) : URec P s := by
  induction h with
  | init => intro _ d1 n d2 e h; simp [init] at h
  | @step s t hr h ih =>
    have hne := incNonempty_reach hr
    cases h with
    | take a b x hx =>
    obtain ⟨⟨d1, n, d2⟩, f⟩ := x
    unfold propagate
    dsimp only
    split
    · intro hfr e1 m e2 e' hk h1 h2 h3 c r d5 h4 h5 h6
      exact ih hfr e1 m e2 e' hk h1 h2 h3 c r d5 h4 h5 h6
    · intro hfr e1 m e2 e' hk h1 h2 h3 c r d5 h4 h5 h6
      rw [mem_task_unbal]
      rw [task_jump, AMap.get_set] at hk
      have h3' : ∀ sp ∈ P.icf.starts (P.icf.funOf m), ∀ c d4, ¬ HasInc s.incoming sp e1 c d4 := by
        intro sp hsp c d4 h
        refine h3 sp hsp c d4 ?_
        rw [task_incoming]
        split
        · rw [hasInc_foldl]; exact .inl h
        · exact h
      split at hk
      · rename_i hkk
        simp only [Prod.mk.injEq] at hkk
        obtain ⟨rfl, rfl, rfl⟩ := hkk
        exact .inr ⟨hfr, h1, h2, noInc_incMap (noInc_of_noHas hne h3'), c, h4, h5, d5, h6⟩
      · exact .inl (ih hfr e1 m e2 e' hk h1 h2 h3' c r d5 h4 h5 h6)

/-- Unbalanced return sites get a value for the zero fact in Phase II. -/
theorem stored_unbal [DecidableEq L] {P : Problem N D F L E} {s : St N D E} {v : VS N D L}
    (h : VReach P s v) {r : N} (hr : r ∈ s.unbal) : Stored v r P.zero := by
  induction h with
  | init =>
    obtain ⟨_, h2⟩ := submitInitialValues_spec P s
    by_cases hc : containsSeedsFor P r = true
    · unfold containsSeedsFor at hc
      rw [List.contains_iff_mem, List.mem_map] at hc
      obtain ⟨p, hp, rfl⟩ := hc
      by_cases hz : ∃ w, (P.zero, w) ∈ p.2
      · obtain ⟨w, hw⟩ := hz
        obtain ⟨fs, h3, h4⟩ := mem_seedsWithZero.2 (⟨p.2, hp, .inl hw⟩ : IsSeed P p.1 P.zero w)
        exact (h2 _ _ (List.mem_append_left _ h3) _ h4).2
      · obtain ⟨fs, h3, h4⟩ := mem_seedsWithZero.2
          (⟨p.2, hp, .inr ⟨rfl, rfl, fun w hw => hz ⟨w, hw⟩⟩⟩ : IsSeed P p.1 P.zero bottom)
        exact (h2 _ _ (List.mem_append_left _ h3) _ h4).2
    · refine (h2 r [(P.zero, top)] (List.mem_append_right _ ?_) (P.zero, top) (by simp)).2
      refine List.mem_map.2 ⟨r, List.mem_filter.2 ⟨hr, ?_⟩, rfl⟩
      simp [hc]
  | step h0 h ih => exact (vInv_step (vReach_spec h0).1 h).2.keep _ _ ih

end
end Phasar.IDE
