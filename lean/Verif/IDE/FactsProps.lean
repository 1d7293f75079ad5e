import Verif.IDE.Props
import Verif.IDE.Facts
/-!
# C02, C05 with requirements only at the facts that occur

The linear constant analysis is a case where the weaker requirements matter: its edge functions are well-behaved only for facts
that are not constants.  `Verif/Analysis/LCAFlowProps.lean` applies both theorems to it, and to a concrete program (`C49.ex`).
-/
namespace Phasar.IDE
open Phasar JoinLat

section
variable {N D F L E : Type} [DecidableEq N] [DecidableEq D] [JoinLat L] [DecidableEq L]

/-- C02 where the edge functions have to be well-behaved only for facts that can occur: `G` is any set of facts that contains
zero and the seeds and is closed under the flow functions. -/
theorem C02_sound_facts {P : Problem N D F L E} {ok : E → Prop} {G : D → Prop} (hA : P.alg.Sound ok) (hc : P.FactsClosed G)
    (hP : P.OkEdgesOn G ok) (hwf : P.icf.WFV) (hnt : P.NoTop ok) (hs : SeedsAtStart P)
    {s : St N D E} {w : VS N D L} (h : Solved P s w) (n : N) (d : D) (x : L)
    (hr : RunVal P n d x) : ∃ l, resultAt w n d = some l ∧ x ⊑ l := by
  classical
  exact C02_sound (P := P.onFacts G) hA (okEdges_onFacts hA.ok_id hP) hwf ⟨hnt.seed, hnt.ap⟩ hs (solved_onFacts hc h) n d x
    (runVal_onFacts hc hr)

omit [DecidableEq N] [DecidableEq D] [JoinLat L] [DecidableEq L] in
theorem factReachable_onFacts {P : Problem N D F L E} {G : D → Prop} [DecidablePred G] {n : N} {d : D}
    (h : FactReachable (P.onFacts G) n d) : FactReachable P n d := by
  obtain ⟨n0, d0, stk, h1, h2⟩ := h
  refine ⟨n0, d0, stk, h1, ?_⟩
  have key : ∀ {a b}, FSteps (P.onFacts G) a b → FSteps P a b := by
    intro a b h
    induction h with
    | refl => exact .refl _
    | tail _ h ih =>
      refine .tail ih ?_
      cases h with
      | normal h1 h2 h3 => exact .normal h1 h2 h3
      | call h1 h2 h3 h4 h5 => exact .call h1 h2 h3 h4 h5
      | ret h1 h2 h3 h4 => exact .ret h1 h2 h3 h4
      | callToRet h1 h2 h3 => exact .callToRet h1 h2 h3
      | summary h1 h2 h3 h4 h5 => exact .summary h1 h2 h3 h4 h5
  exact key h2

/-- C05 in the same generality. -/
theorem C05_terminates_facts {P : Problem N D F L E} {ok : E → Prop} {G : D → Prop} (hok : OkClosed P.alg ok)
    (hc : P.FactsClosed G) (hP : P.OkEdgesOn G ok) (hwf : P.icf.WFV) (huniq : P.icf.UniqueStart)
    (hfr : P.followReturnsPastSeeds = false) (hs : SeedsAtStart P) (hsum : SummariesDisjoint P)
    {rankE : E → Nat} {H : Nat}
    (hE : P.alg.FiniteHeight ok rankE H) {rankL : L → Nat} (hL : FiniteHeightL L rankL)
    (R : List (N × D)) (hR : ∀ n d, FactReachable P n d → (n, d) ∈ R) :
    Acc (fun t s => SStep P s t) (init P) ∧
    (∀ s, Reach P s → Acc (fun w v => VStep P s v w) (submitInitialValues P s)) ∧
    ∃ fuel s w, solve P fuel = some (s, w) := by
  classical
  obtain ⟨h1, h2, _⟩ := C05_terminates_reachable (P := P.onFacts G) hok (okEdges_onFacts hok.ok_id hP) hwf huniq hfr hs hsum
    hE hL R fun n d h => hR n d (factReachable_onFacts h)
  have a1 : Acc (fun t s => SStep P s t) (init P) := by
    have : ∀ s, Acc (fun t s => SStep (P.onFacts G) s t) s → GoodSt G s → Acc (fun t s => SStep P s t) s := by
      intro s ha
      induction ha with
      | intro s _ ih =>
        intro hg
        refine Acc.intro _ fun t ht => ?_
        have := sStep_onFacts hc hg ht
        exact ih t this.1 this.2
    exact this _ h1 (reach_onFacts hc Reach.init).2
  have a2 : ∀ s, Reach P s → Acc (fun w v => VStep P s v w) (submitInitialValues P s) := by
    intro s hr
    obtain ⟨hr', hg⟩ := reach_onFacts hc hr
    have : ∀ v, Acc (fun w v => VStep (P.onFacts G) s v w) v → (∀ x ∈ v.vwl, G x.2) → Acc (fun w v => VStep P s v w) v := by
      intro v ha
      induction ha with
      | intro v _ ih =>
        intro hv
        refine Acc.intro _ fun t ht => ?_
        have := vStep_onFacts hc hg hv ht
        exact ih t this.1 this.2
    have h0 := submit_onFacts (L := L) hc hg
    exact this _ (h0.1 ▸ h2 s hr') h0.2
  exact ⟨a1, a2, solve_of_acc a1 a2⟩

end
end Phasar.IDE
