import Verif.IDE.Model
/-!
# Specification of the IFDS/IDE results

A small-step pushdown semantics of the exploded super graph.  It mentions only the problem (ICFG,
flow functions, edge functions, seeds); none of the solver's tables or helper functions.
-/
namespace Phasar.IDE
open Phasar

/-- A configuration of a run: pending call sites (innermost first), current statement, current
data-flow fact, current value. -/
structure Cfg (N D L : Type) where
  stk : List N
  n : N
  d : D
  v : L

section
variable {N D F L E : Type}

/-- One step of a realizable run. Calls push the call site; a return is only possible to the return
sites of the call site that was pushed last, so calls and returns match. -/
inductive RStep (P : Problem N D F L E) : Cfg N D L → Cfg N D L → Prop
  /-- Intra-procedural step from a non-call statement to a successor. -/
  | normal {stk n d v n' d'} : P.icf.isCall n = false → n' ∈ P.icf.succs n →
      d' ∈ P.normalFlow n n' d →
      RStep P ⟨stk, n, d, v⟩ ⟨stk, n', d', P.alg.ap (P.normalEdge n d n' d') v⟩
  /-- Enter callee `g` (for which no summary is given) at its start point. -/
  | call {stk n d v g sp d'} : P.icf.isCall n = true → g ∈ P.icf.callees n →
      P.summaryFlow n g = none → sp ∈ P.icf.starts g → d' ∈ P.callFlow n g d →
      RStep P ⟨stk, n, d, v⟩ ⟨n :: stk, sp, d', P.alg.ap (P.callEdge n d g d') v⟩
  /-- Return from an exit statement to a return site of the innermost pending call. -/
  | ret {stk c n d v r d'} : P.icf.isCall n = false → P.icf.isExit n = true →
      r ∈ P.icf.retSites c → d' ∈ P.retFlow c (P.icf.funOf n) n r d →
      RStep P ⟨c :: stk, n, d, v⟩ ⟨stk, r, d', P.alg.ap (P.retEdge c (P.icf.funOf n) n d r d') v⟩
  /-- Skip over a call. -/
  | callToRet {stk n d v r d'} : P.icf.isCall n = true → r ∈ P.icf.retSites n →
      d' ∈ P.ctrFlow n r d →
      RStep P ⟨stk, n, d, v⟩ ⟨stk, r, d', P.alg.ap (P.ctrEdge n d r d') v⟩
  /-- Use the summary given for a callee. -/
  | summary {stk n d v g sum r d'} : P.icf.isCall n = true → g ∈ P.icf.callees n →
      P.summaryFlow n g = some sum → r ∈ P.icf.retSites n → d' ∈ sum d →
      RStep P ⟨stk, n, d, v⟩ ⟨stk, r, d', P.alg.ap (P.sumEdge n d r d') v⟩

/-- Zero or more steps. -/
inductive RSteps (P : Problem N D F L E) : Cfg N D L → Cfg N D L → Prop
  | refl (c : Cfg N D L) : RSteps P c c
  | tail {a b c : Cfg N D L} : RSteps P a b → RStep P b c → RSteps P a c

/-- `(n, d)` is seeded with value `v`: given by the user, or the zero fact (with value bottom) at a
seeded statement for which the user gave no zero seed. -/
def IsSeed [JoinLat L] (P : Problem N D F L E) (n : N) (d : D) (v : L) : Prop :=
  ∃ facts, (n, facts) ∈ P.seeds ∧
    ((d, v) ∈ facts ∨ (d = P.zero ∧ v = JoinLat.bottom ∧ ∀ w, (P.zero, w) ∉ facts))

/-- Some realizable run from a seed arrives at `(n, d)` with value `v`. -/
def RunVal [JoinLat L] (P : Problem N D F L E) (n : N) (d : D) (v : L) : Prop :=
  ∃ n0 d0 v0 stk, IsSeed P n0 d0 v0 ∧ RSteps P ⟨[], n0, d0, v0⟩ ⟨stk, n, d, v⟩

/-- Some realizable run from a seed arrives at fact `d` at statement `n`. -/
def Reachable [JoinLat L] (P : Problem N D F L E) (n : N) (d : D) : Prop := ∃ v, RunVal P n d v

/-! ## Assumptions on the inputs -/

/-- Consistency of the ICFG queries, as provided by `LLVMBasedICFG`:
successors and return sites stay in the function; start points belong to their function. -/
structure ICFG.WF (G : ICFG N F) : Prop where
  succs_fun : ∀ n n', n' ∈ G.succs n → G.funOf n' = G.funOf n
  ret_fun : ∀ c r, r ∈ G.retSites c → G.funOf r = G.funOf c
  start_fun : ∀ f sp, sp ∈ G.starts f → G.funOf sp = f

/-- Further consistency needed for values: start points are never jumped to from inside the function
(LLVM entry blocks have no predecessors), `isStartPoint`, `getCallsFromWithin` and
`allNonCallStartNodes` agree with the other queries. -/
structure ICFG.WFV (G : ICFG N F) : Prop extends ICFG.WF G where
  start_no_pred : ∀ f sp, sp ∈ G.starts f → (∀ n, sp ∉ G.succs n) ∧ (∀ c, sp ∉ G.retSites c)
  isStart_iff : ∀ n, G.isStart n = true ↔ n ∈ G.starts (G.funOf n)
  callsIn_iff : ∀ f n, n ∈ G.callsIn f ↔ (G.isCall n = true ∧ G.funOf n = f)
  ncs_iff : ∀ n, n ∈ G.nonCallStart ↔ (G.isCall n = false ∧ G.isStart n = false)

/-- Functions have at most one start point (`LLVMBasedCFG::getStartPointsOf`,
`lib/PhasarLLVM/ControlFlow/LLVMBasedCFG.cpp:129-147`). -/
def ICFG.UniqueStart (G : ICFG N F) : Prop :=
  ∀ f sp sp', sp ∈ G.starts f → sp' ∈ G.starts f → sp = sp'

/-- All seeds are at function start points. -/
def SeedsAtStart (P : Problem N D F L E) : Prop :=
  ∀ n facts, (n, facts) ∈ P.seeds → n ∈ P.icf.starts (P.icf.funOf n)

/-- A callee with a special summary is not also entered by the call flow functions (Phase II of the
solver does not look at summaries). -/
def SummariesDisjoint (P : Problem N D F L E) : Prop :=
  ∀ n g sm, g ∈ P.icf.callees n → P.summaryFlow n g = some sm → P.icf.starts g = [] ∨ ∀ d, P.callFlow n g d = []

open JoinLat in
/-- What an edge-function algebra must satisfy for soundness, on the set `ok` of edge functions that
occur (closed under the operations, not containing all-top): `composeWith` over-approximates
composition, `joinWith` is an upper bound, functions are monotone (at Top, "no information", only where
`EdgeAlg.MonoTop` is assumed in addition), and `operator==` is not true for
functions that behave differently. -/
structure EdgeAlg.Sound [JoinLat L] (A : EdgeAlg L E) (ok : E → Prop) : Prop where
  ok_id : ok A.idE
  ok_extend : ∀ f g, ok f → ok g → ok (A.extend f g)
  ok_combine : ∀ f g, ok f → ok g → ok (A.combine f g)
  ok_first : ∀ f, ok f → ok (A.combine A.allTop f)
  not_top : ∀ f, ok f → A.eqE f A.allTop = false
  eq_sound : ∀ f g, ok f → ok g → A.eqE f g = true → ∀ x, A.ap f x = A.ap g x
  ap_id : ∀ x, x ⊑ A.ap A.idE x
  mono : ∀ f, ok f → ∀ x y, x ≠ top → x ⊑ y → A.ap f x ⊑ A.ap f y
  extend_ge : ∀ f g, ok f → ok g → ∀ x, A.ap g (A.ap f x) ⊑ A.ap (A.extend f g) x
  combine_ge_left : ∀ f g, ok f → ok g → ∀ x, A.ap f x ⊑ A.ap (A.combine f g) x
  combine_ge_right : ∀ f g, ok f → ok g → ∀ x, A.ap g x ⊑ A.ap (A.combine f g) x
  first_ge : ∀ f, ok f → ∀ x, A.ap f x ⊑ A.ap (A.combine A.allTop f) x

open JoinLat in
/-- Edge functions are monotone at Top as well. -/
def EdgeAlg.MonoTop [JoinLat L] (A : EdgeAlg L E) (ok : E → Prop) : Prop :=
  ∀ f, ok f → ∀ y, A.ap f top ⊑ A.ap f y

/-- What is needed in addition for precision: exact composition and join, and distributivity. -/
structure EdgeAlg.Exact [JoinLat L] (A : EdgeAlg L E) (ok : E → Prop) : Prop where
  ap_id : ∀ x, A.ap A.idE x = x
  extend_eq : ∀ f g, ok f → ok g → ∀ x, A.ap (A.extend f g) x = A.ap g (A.ap f x)
  combine_eq : ∀ f g, ok f → ok g → ∀ x,
    A.ap (A.combine f g) x = JoinLat.join (A.ap f x) (A.ap g x)
  first_eq : ∀ f, ok f → ∀ x, A.ap (A.combine A.allTop f) x = A.ap f x
  distrib : ∀ f, ok f → ∀ x y, A.ap f (JoinLat.join x y) = JoinLat.join (A.ap f x) (A.ap f y)

/-- All edge functions the problem hands out for existing flows are in `ok`. -/
structure Problem.OkEdges (P : Problem N D F L E) (ok : E → Prop) : Prop where
  normal : ∀ n d n' d', n' ∈ P.icf.succs n → d' ∈ P.normalFlow n n' d → ok (P.normalEdge n d n' d')
  call : ∀ n d g d', g ∈ P.icf.callees n → d' ∈ P.callFlow n g d → ok (P.callEdge n d g d')
  ret : ∀ c g e d r d', r ∈ P.icf.retSites c → d' ∈ P.retFlow c g e r d → ok (P.retEdge c g e d r d')
  ctr : ∀ n d r d', r ∈ P.icf.retSites n → d' ∈ P.ctrFlow n r d → ok (P.ctrEdge n d r d')
  sum : ∀ n d g s r d', P.summaryFlow n g = some s → r ∈ P.icf.retSites n → d' ∈ s d →
    ok (P.sumEdge n d r d')

/-- Exactness on the edge functions that occur between each pair of facts: `ok d d'` holds of the functions from `d` to
`d'`. Composition is only needed for functions that meet in a fact, and joins for functions between the same facts. -/
structure EdgeAlg.ExactFor [JoinLat L] (A : EdgeAlg L E) (ok : D → D → E → Prop) : Prop where
  ok_id : ∀ d, ok d d A.idE
  ok_extend : ∀ d1 d2 d3 f g, ok d1 d2 f → ok d2 d3 g → ok d1 d3 (A.extend f g)
  ok_combine : ∀ d1 d2 f g, ok d1 d2 f → ok d1 d2 g → ok d1 d2 (A.combine f g)
  ok_first : ∀ d1 d2 f, ok d1 d2 f → ok d1 d2 (A.combine A.allTop f)
  ap_id : ∀ x, A.ap A.idE x = x
  extend_eq : ∀ d1 d2 d3 f g, ok d1 d2 f → ok d2 d3 g → ∀ x, A.ap (A.extend f g) x = A.ap g (A.ap f x)
  combine_eq : ∀ d1 d2 f g, ok d1 d2 f → ok d1 d2 g → ∀ x,
    A.ap (A.combine f g) x = JoinLat.join (A.ap f x) (A.ap g x)
  first_eq : ∀ d1 d2 f, ok d1 d2 f → ∀ x, A.ap (A.combine A.allTop f) x = A.ap f x
  distrib : ∀ d1 d2 f, ok d1 d2 f → ∀ x y, A.ap f (JoinLat.join x y) = JoinLat.join (A.ap f x) (A.ap f y)

/-- All edge functions the problem hands out for existing flows from `d` to `d'` are in `ok d d'`. -/
structure Problem.OkEdgesFor (P : Problem N D F L E) (ok : D → D → E → Prop) : Prop where
  normal : ∀ n d n' d', P.icf.isCall n = false → n' ∈ P.icf.succs n → d' ∈ P.normalFlow n n' d → ok d d' (P.normalEdge n d n' d')
  call : ∀ n d g d', P.icf.isCall n = true → g ∈ P.icf.callees n → d' ∈ P.callFlow n g d → ok d d' (P.callEdge n d g d')
  /-- Only returns to calls of the function count, unless returns past the seeds are followed. -/
  ret : ∀ c g e d r d', P.followReturnsPastSeeds = true ∨ (P.icf.isCall c = true ∧ g ∈ P.icf.callees c) → P.icf.isExit e = true →
    P.icf.funOf e = g → r ∈ P.icf.retSites c → d' ∈ P.retFlow c g e r d → ok d d' (P.retEdge c g e d r d')
  ctr : ∀ n d r d', P.icf.isCall n = true → r ∈ P.icf.retSites n → d' ∈ P.ctrFlow n r d → ok d d' (P.ctrEdge n d r d')
  sum : ∀ n d g s r d', P.summaryFlow n g = some s → r ∈ P.icf.retSites n → d' ∈ s d →
    ok d d' (P.sumEdge n d r d')
  /-- What returns past a seed is continued as if it came from zero. -/
  unbal : P.followReturnsPastSeeds = true → ∀ d d' f, ok d d' f → ok P.zero d' f

open JoinLat in
/-- Soundness on the edge functions that occur between each pair of facts: `ok d d'` holds of the functions from `d` to `d'`.
As `EdgeAlg.Sound`, but composition only matters for functions that meet in a fact, and joins for functions between the same
facts. -/
structure EdgeAlg.SoundFor [JoinLat L] (A : EdgeAlg L E) (ok : D → D → E → Prop) : Prop where
  ok_id : ∀ d, ok d d A.idE
  ok_extend : ∀ d1 d2 d3 f g, ok d1 d2 f → ok d2 d3 g → ok d1 d3 (A.extend f g)
  ok_combine : ∀ d1 d2 f g, ok d1 d2 f → ok d1 d2 g → ok d1 d2 (A.combine f g)
  ok_first : ∀ d1 d2 f, ok d1 d2 f → ok d1 d2 (A.combine A.allTop f)
  not_top : ∀ d1 d2 f, ok d1 d2 f → A.eqE f A.allTop = false
  eq_sound : ∀ d1 d2 f g, ok d1 d2 f → ok d1 d2 g → A.eqE f g = true → ∀ x, A.ap f x = A.ap g x
  ap_id : ∀ x, x ⊑ A.ap A.idE x
  mono : ∀ d1 d2 f, ok d1 d2 f → ∀ x y, x ≠ top → x ⊑ y → A.ap f x ⊑ A.ap f y
  extend_ge : ∀ d1 d2 d3 f g, ok d1 d2 f → ok d2 d3 g → ∀ x, A.ap g (A.ap f x) ⊑ A.ap (A.extend f g) x
  combine_ge_left : ∀ d1 d2 f g, ok d1 d2 f → ok d1 d2 g → ∀ x, A.ap f x ⊑ A.ap (A.combine f g) x
  combine_ge_right : ∀ d1 d2 f g, ok d1 d2 f → ok d1 d2 g → ∀ x, A.ap g x ⊑ A.ap (A.combine f g) x
  first_ge : ∀ d1 d2 f, ok d1 d2 f → ∀ x, A.ap f x ⊑ A.ap (A.combine A.allTop f) x

/-- The edge functions that occur between some pair of facts. -/
def AnyPair (ok : D → D → E → Prop) (f : E) : Prop := ∃ d d', ok d d' f

/-- Values never degenerate to Top ("no information"): seeds are not Top and edge functions do not
produce Top from something else. The solver stops propagating a value that is Top. -/
structure Problem.NoTop [JoinLat L] (P : Problem N D F L E) (ok : E → Prop) : Prop where
  seed : ∀ n d v, IsSeed P n d v → v ≠ JoinLat.top
  ap : ∀ f, ok f → ∀ x, x ≠ JoinLat.top → P.alg.ap f x ≠ JoinLat.top

/-- Either Top never occurs as a value, or the edge functions are monotone at Top. -/
def Problem.Regular [JoinLat L] (P : Problem N D F L E) (ok : E → Prop) : Prop :=
  P.NoTop ok ∨ P.alg.MonoTop ok

end
end Phasar.IDE
