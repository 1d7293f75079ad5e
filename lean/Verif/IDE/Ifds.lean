import Verif.IDE.Termination
import Verif.EdgeFn.Lemmas
/-!
# IFDS problems and automatic zero-adding

IFDS as the special case of IDE used by phasar, a value-free specification of its results, and the
`autoAddZero` wrapper.
-/
set_option linter.unusedSectionVars false
namespace Phasar.IDE
open Phasar JoinLat

/-- The edge-function algebra of IFDS problems: `IFDSTabulationProblem` uses `BinaryDomain` values,
`EdgeIdentity` everywhere and `AllTop` as the top function (`IFDSTabulationProblem.h:48-78`,
`IDETabulationProblem.h:56-58`). -/
def ifdsAlg : EdgeAlg BinaryDomain (EF Empty BinaryDomain) :=
  EF.alg { pap := fun p _ => p.elim, N := 0, soo := true } (fun _ _ => false)

/-- `P` is an IFDS problem: all five edge functions return `EdgeIdentity`
(`include/phasar/DataFlow/IfdsIde/IFDSTabulationProblem.h:48-78`) and the seeds carry the default
value `BOTTOM` (`InitialSeeds.h:42-46`). -/
structure IsIFDS {N D F : Type} (P : Problem N D F BinaryDomain (EF Empty BinaryDomain)) : Prop where
  alg : P.alg = ifdsAlg
  normal : ∀ n d n' d', P.normalEdge n d n' d' = .id
  call : ∀ n d g d', P.callEdge n d g d' = .id
  ret : ∀ c g e d r d', P.retEdge c g e d r d' = .id
  ctr : ∀ n d r d', P.ctrEdge n d r d' = .id
  sum : ∀ n d r d', P.sumEdge n d r d' = .id
  seeds : ∀ n facts, (n, facts) ∈ P.seeds → ∀ d v, (d, v) ∈ facts → v = .BOTTOM

theorem ifdsAlg_sound : ifdsAlg.Sound (fun f => f = .id) where
  ok_id := rfl
  ok_extend := by rintro f g rfl rfl; rfl
  ok_combine := by rintro f g rfl rfl; rfl
  ok_first := by rintro f rfl; rfl
  not_top := by rintro f rfl; decide
  eq_sound := by rintro f g rfl rfl _ x; rfl
  ap_id := fun x => le_refl x
  mono := by rintro f rfl x y _ h; exact h
  extend_ge := by rintro f g rfl rfl x; exact le_refl x
  combine_ge_left := by rintro f g rfl rfl x; exact le_refl x
  combine_ge_right := by rintro f g rfl rfl x; exact le_refl x
  first_ge := by rintro f rfl x; exact le_refl x

theorem IsIFDS.okEdges {N D F : Type} {P : Problem N D F BinaryDomain (EF Empty BinaryDomain)}
    (h : IsIFDS P) : P.OkEdges (fun f => f = .id) :=
  ⟨fun _ _ _ _ _ _ => h.normal .., fun _ _ _ _ _ _ => h.call .., fun _ _ _ _ _ _ _ _ => h.ret ..,
   fun _ _ _ _ _ _ => h.ctr .., fun _ _ _ _ _ _ _ _ _ => h.sum ..⟩

theorem IsIFDS.noTop {N D F : Type} {P : Problem N D F BinaryDomain (EF Empty BinaryDomain)}
    (h : IsIFDS P) : P.NoTop (fun f => f = .id) where
  seed := by
    rintro n d v ⟨facts, hf, h' | ⟨_, h', _⟩⟩
    · rw [h.seeds _ _ hf _ _ h']; exact fun h => by cases h
    · rw [h']; exact fun h => by cases h
  ap := by
    rintro f rfl x hx
    rw [h.alg]
    exact hx

/-! ## Value-free specification of IFDS -/

section
variable {N D F L E : Type}

/-- One step of a realizable run of the flow functions, without values. A configuration is the stack
of pending call sites, the statement and the fact. -/
inductive FStep (P : Problem N D F L E) : List N × N × D → List N × N × D → Prop
  | normal {stk n d n' d'} : P.icf.isCall n = false → n' ∈ P.icf.succs n →
      d' ∈ P.normalFlow n n' d → FStep P (stk, n, d) (stk, n', d')
  | call {stk n d g sp d'} : P.icf.isCall n = true → g ∈ P.icf.callees n →
      P.summaryFlow n g = none → sp ∈ P.icf.starts g → d' ∈ P.callFlow n g d →
      FStep P (stk, n, d) (n :: stk, sp, d')
  | ret {stk c n d r d'} : P.icf.isCall n = false → P.icf.isExit n = true →
      r ∈ P.icf.retSites c → d' ∈ P.retFlow c (P.icf.funOf n) n r d →
      FStep P (c :: stk, n, d) (stk, r, d')
  | callToRet {stk n d r d'} : P.icf.isCall n = true → r ∈ P.icf.retSites n →
      d' ∈ P.ctrFlow n r d → FStep P (stk, n, d) (stk, r, d')
  | summary {stk n d g sum r d'} : P.icf.isCall n = true → g ∈ P.icf.callees n →
      P.summaryFlow n g = some sum → r ∈ P.icf.retSites n → d' ∈ sum d →
      FStep P (stk, n, d) (stk, r, d')

/-- Zero or more steps. -/
inductive FSteps (P : Problem N D F L E) : List N × N × D → List N × N × D → Prop
  | refl (c) : FSteps P c c
  | tail {a b c} : FSteps P a b → FStep P b c → FSteps P a c

/-- A seed without its value: given by the user, or the zero fact at a seeded statement. -/
def IsSeedFact (P : Problem N D F L E) (n : N) (d : D) : Prop :=
  ∃ facts, (n, facts) ∈ P.seeds ∧ (d ∈ facts.map Prod.fst ∨ d = P.zero)

/-- Fact `d` is reached at `n` by a realizable run from a seed. -/
def FactReachable (P : Problem N D F L E) (n : N) (d : D) : Prop :=
  ∃ n0 d0 stk, IsSeedFact P n0 d0 ∧ FSteps P ([], n0, d0) (stk, n, d)

theorem factReachable_iff [DecidableEq D] [JoinLat L] {P : Problem N D F L E} {n : N} {d : D} :
    Reachable P n d ↔ FactReachable P n d := by
  constructor
  · rintro ⟨v, n0, d0, v0, stk, ⟨facts, hf, hs⟩, hr⟩
    refine ⟨n0, d0, stk, ⟨facts, hf, ?_⟩, ?_⟩
    · rcases hs with hs | ⟨hs, _⟩
      · exact .inl (List.mem_map.2 ⟨_, hs, rfl⟩)
      · exact .inr hs
    · have key : ∀ a b : Cfg N D L, RSteps P a b → FSteps P (a.stk, a.n, a.d) (b.stk, b.n, b.d) := by
        intro a b h
        induction h with
        | refl => exact .refl _
        | tail _ h ih =>
          refine .tail ih ?_
          cases h with
          | normal h1 h2 h3 => exact .normal h1 h2 h3
          | call h1 h2 h3 h4 h5 => exact .call h1 h2 h3 h4 h5
          | ret h1 h2 h3 h4 => exact .ret h1 h2 h3 h4
          | callToRet h1 h2 h3 => exact .callToRet h1 h2 h3
          | summary h1 h2 h3 h4 h5 => exact .summary h1 h2 h3 h4 h5
      exact key _ _ hr
  · rintro ⟨n0, d0, stk, ⟨facts, hf, hs⟩, hr⟩
    have hseed : ∃ v, IsSeed P n0 d0 v := by
      rcases hs with hs | hs
      · obtain ⟨⟨d', v⟩, hm, rfl⟩ := List.mem_map.1 hs
        exact ⟨v, facts, hf, .inl hm⟩
      · by_cases hz : P.zero ∈ facts.map Prod.fst
        · obtain ⟨⟨d', v⟩, hm, hd⟩ := List.mem_map.1 hz
          refine ⟨v, facts, hf, .inl ?_⟩
          rw [hs, ← hd]
          exact hm
        · exact ⟨bottom, facts, hf, .inr ⟨hs, rfl, fun w hw => hz (List.mem_map.2 ⟨_, hw, rfl⟩)⟩⟩
    obtain ⟨v, hv⟩ := hseed
    have key : ∀ a b, FSteps P a b → ∀ v : L, ∃ w, RSteps P ⟨a.1, a.2.1, a.2.2, v⟩ ⟨b.1, b.2.1, b.2.2, w⟩ := by
      intro a b h
      induction h with
      | refl => exact fun v => ⟨v, .refl _⟩
      | tail _ h ih =>
        intro v
        obtain ⟨w, hw⟩ := ih v
        cases h with
        | normal h1 h2 h3 => exact ⟨_, .tail hw (.normal h1 h2 h3)⟩
        | call h1 h2 h3 h4 h5 => exact ⟨_, .tail hw (.call h1 h2 h3 h4 h5)⟩
        | ret h1 h2 h3 h4 => exact ⟨_, .tail hw (.ret h1 h2 h3 h4)⟩
        | callToRet h1 h2 h3 => exact ⟨_, .tail hw (.callToRet h1 h2 h3)⟩
        | summary h1 h2 h3 h4 h5 => exact ⟨_, .tail hw (.summary h1 h2 h3 h4 h5)⟩
    obtain ⟨w, hw⟩ := key _ _ hr v
    exact ⟨w, n0, d0, v, stk, hv, hw⟩

/-! ## autoAddZero -/

/-- `ZeroedFlowFunction::computeTargets` (`FlowFunctions.h:111-118`). -/
def zeroed [DecidableEq D] (z : D) (f : D → List D) (d : D) : List D :=
  if d = z then (if z ∈ f d then f d else f d ++ [z]) else f d

/-- The problem as the solver sees it with `autoAddZero` on: the cache wraps normal, call, return and
call-to-return flow functions, but not summaries (`FlowEdgeFunctionCache.h:192-330`). -/
def autoZero [DecidableEq D] (P : Problem N D F L E) : Problem N D F L E :=
  { P with
    normalFlow := fun n n' => zeroed P.zero (P.normalFlow n n')
    callFlow := fun n g => zeroed P.zero (P.callFlow n g)
    retFlow := fun c g e r => zeroed P.zero (P.retFlow c g e r)
    ctrFlow := fun n r => zeroed P.zero (P.ctrFlow n r) }

theorem zero_mem_zeroed [DecidableEq D] (z : D) (f : D → List D) : z ∈ zeroed z f z := by
  unfold zeroed
  rw [if_pos rfl]
  split
  · assumption
  · simp

/-- One step of realizable control flow: successors, calls with matching returns, stepping over calls. -/
inductive CStep (G : ICFG N F) (hasSummary : N → F → Bool) : List N × N → List N × N → Prop
  | normal {stk n n'} : G.isCall n = false → n' ∈ G.succs n → CStep G hasSummary (stk, n) (stk, n')
  | call {stk n g sp} : G.isCall n = true → g ∈ G.callees n → hasSummary n g = false →
      sp ∈ G.starts g → CStep G hasSummary (stk, n) (n :: stk, sp)
  | ret {stk c n r} : G.isCall n = false → G.isExit n = true → r ∈ G.retSites c →
      CStep G hasSummary (c :: stk, n) (stk, r)
  | over {stk n r} : G.isCall n = true → r ∈ G.retSites n → CStep G hasSummary (stk, n) (stk, r)

/-- Zero or more control-flow steps. -/
inductive CSteps (G : ICFG N F) (hasSummary : N → F → Bool) : List N × N → List N × N → Prop
  | refl (c) : CSteps G hasSummary c c
  | tail {a b c} : CSteps G hasSummary a b → CStep G hasSummary b c → CSteps G hasSummary a c

/-- Control reaches `n` from a seeded statement. -/
def ControlReachable (P : Problem N D F L E) (n : N) : Prop :=
  ∃ n0 facts stk, (n0, facts) ∈ P.seeds ∧
    CSteps P.icf (fun n g => (P.summaryFlow n g).isSome) ([], n0) (stk, n)

theorem zero_reachable [DecidableEq D] {P : Problem N D F L E} {n : N} (h : ControlReachable P n) :
    FactReachable (autoZero P) n P.zero := by
  obtain ⟨n0, facts, stk, hs, hr⟩ := h
  refine ⟨n0, P.zero, stk, ⟨facts, hs, .inr rfl⟩, ?_⟩
  have key : ∀ a b, CSteps P.icf (fun n g => (P.summaryFlow n g).isSome) a b →
      FSteps (autoZero P) (a.1, a.2, P.zero) (b.1, b.2, P.zero) := by
    intro a b h
    induction h with
    | refl => exact .refl _
    | tail _ h ih =>
      refine .tail ih ?_
      cases h with
      | normal h1 h2 => exact .normal h1 h2 (zero_mem_zeroed _ _)
      | call h1 h2 h3 h4 =>
        exact .call h1 h2 (by simpa [autoZero] using h3) h4 (zero_mem_zeroed _ _)
      | ret h1 h2 h3 => exact .ret h1 h2 h3 (zero_mem_zeroed _ _)
      | over h1 h2 => exact .callToRet h1 h2 (zero_mem_zeroed _ _)
  exact key _ _ hr

end
end Phasar.IDE
