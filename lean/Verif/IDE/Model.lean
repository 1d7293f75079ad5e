import Verif.Base.Lat
import Verif.Base.AMap
/-!
# Model of phasar's IFDS/IDE solver

`include/phasar/DataFlow/IfdsIde/Solver/IDESolver.h`, function by function.  Logging, statistics
(`PAMM`), the optional recording of path edges (`saveEdges`, :779-788) and the intermediate edge
functions kept for the ESG dot export (`emitESG`) do not influence the result and are left out.
The flow/edge-function cache (`CachedFlowEdgeFunctions`) is transparent (see `Verif.Store`), so
queries go to the problem directly.
-/
namespace Phasar.IDE
open Phasar

/-- The queries the solver makes to the ICFG.
Models `include/phasar/ControlFlow/CFGBase.h:60-150` and `ICFGBase.h:25-126`:
`getSuccsOf`, `isCallSite`, `isExitInst`, `isStartPoint`, `getFunctionOf`, `getStartPointsOf`,
`getCalleesOfCallAt`, `getReturnSitesOfCallAt`, `getCallersOf`, `getCallsFromWithin`,
`allNonCallStartNodes`.  Ranges are lists. -/
structure ICFG (N F : Type) where
  succs : N → List N
  isCall : N → Bool
  isExit : N → Bool
  isStart : N → Bool
  funOf : N → F
  starts : F → List N
  callees : N → List F
  retSites : N → List N
  callers : F → List N
  callsIn : F → List N
  nonCallStart : List N

/-- Edge functions as an abstract carrier `E`.
`ap` = `EdgeFunction::computeTarget`; `eqE` = `operator==` (`EdgeFunction.h:426-436`);
`extend`/`combine` = `SemiRing::extend`/`combine` (`include/phasar/Utils/SemiRing.h:17-34`), by
default `composeWith`/`joinWith`; `idE` = `EdgeIdentity`; `allTop` = `allTopFunction()`
(`IDETabulationProblem.h:56-58`). -/
structure EdgeAlg (L E : Type) where
  ap : E → L → L
  extend : E → E → E
  combine : E → E → E
  eqE : E → E → Bool
  idE : E
  allTop : E

/-- A tabulation problem: `IDETabulationProblem` (`IDETabulationProblem.h:60-190`), its flow functions
(`FlowFunctions.h:640-860`), edge functions (`EdgeFunctions.h:30-271`) and initial seeds
(`InitialSeeds.h:26-118`, a map from statement to a map from fact to value).
Flow functions are given by the set of targets (`computeTargets`) as a list.
`summaryFlow n f = none` models `getSummaryFlowFunction` returning `nullptr`.
Simplification: the callee list passed to call-to-return functions is a function of the call site,
so it is not a separate argument. -/
structure Problem (N D F L E : Type) where
  icf : ICFG N F
  alg : EdgeAlg L E
  normalFlow : N → N → D → List D
  callFlow : N → F → D → List D
  retFlow : N → F → N → N → D → List D
  ctrFlow : N → N → D → List D
  summaryFlow : N → F → Option (D → List D)
  normalEdge : N → D → N → D → E
  callEdge : N → D → F → D → E
  retEdge : N → F → N → D → N → D → E
  ctrEdge : N → D → N → D → E
  sumEdge : N → D → N → D → E
  zero : D
  seeds : List (N × List (D × L))
  followReturnsPastSeeds : Bool

/-- `PathEdge<n_t,d_t>` (`PathEdge.h:17-59`): fact at the function start, target statement, fact there. -/
structure PathEdge (N D : Type) where
  d1 : D
  n : N
  d2 : D
deriving DecidableEq, Repr

/-- Phase I state: data members of `IDESolver` (`IDESolver.h:1803-1844`).
`wl` = `WorkList` (its back is the end of the list); `jump` = `JumpFn` keyed by `(d1, n, d2)` (its
three lookup views agree, see `Verif.Store`); `endSum` = `EndsummaryTab` flattened to the key
`(sP, d1, eP, d2)`; `incoming` = `IncomingTab` keyed by `(sP, d3)`, mapping call sites to fact sets;
`unbal` = `UnbalancedRetSites`. -/
structure St (N D E : Type) where
  wl : List (PathEdge N D × E)
  jump : AMap (D × N × D) E
  endSum : AMap (N × D × N × D) E
  incoming : AMap (N × D) (AMap N (List D))
  unbal : List N

section
variable {N D F L E : Type} [DecidableEq N] [DecidableEq D]

/-- `std::set::insert`. -/
def insertSet {A : Type} [DecidableEq A] (l : List A) (a : A) : List A :=
  if a ∈ l then l else l ++ [a]

/-- `IDESolver::jumpFunction` (`IDESolver.h:670-696`): the stored jump function or `AllTop`. -/
def jumpFunction (P : Problem N D F L E) (s : St N D E) (d1 : D) (n : N) (d2 : D) : E :=
  match s.jump.get (d1, n, d2) with
  | some e => e
  | none => P.alg.allTop

/-- `JumpFunctions::reverseLookup(n, d2)` (`JumpFunctions.h:130-142`): all `(d1, f)`. -/
def reverseLookup (s : St N D E) (n : N) (d2 : D) : List (D × E) :=
  s.jump.filterMap fun p => if p.1.2.1 = n ∧ p.1.2.2 = d2 then some (p.1.1, p.2) else none

/-- `JumpFunctions::forwardLookup(d1, n)` (`JumpFunctions.h:144-155`): all `(d2, f)`. -/
def forwardLookup (J : AMap (D × N × D) E) (d1 : D) (n : N) : List (D × E) :=
  J.filterMap fun p => if p.1.1 = d1 ∧ p.1.2.1 = n then some (p.1.2.2, p.2) else none

/-- `JumpFunctions::lookupByTarget(n)` (`JumpFunctions.h:157-163`): all `(d1, d2, f)`. -/
def lookupByTarget (J : AMap (D × N × D) E) (n : N) : List (D × D × E) :=
  J.filterMap fun p => if p.1.2.1 = n then some (p.1.1, p.1.2.2, p.2) else none

/-- `IDESolver::endSummary(SP, d3)` (`IDESolver.h:1195-1207`): all `(eP, d4, f)`. -/
def endSummary (s : St N D E) (sp : N) (d3 : D) : List (N × D × E) :=
  s.endSum.filterMap fun p =>
    if p.1.1 = sp ∧ p.1.2.1 = d3 then some (p.1.2.2.1, p.1.2.2.2, p.2) else none

/-- `IDESolver::incoming(d1, SP)` (`IDESolver.h:1209-1211`): call sites with their fact sets. -/
def incomingAt (s : St N D E) (sp : N) (d1 : D) : AMap N (List D) :=
  match s.incoming.get (sp, d1) with
  | some m => m
  | none => []

/-- `IDESolver::addIncoming` (`IDESolver.h:1213-1215`). -/
def addIncoming (inc : AMap (N × D) (AMap N (List D))) (sp : N) (d3 : D) (n : N) (d2 : D) :
    AMap (N × D) (AMap N (List D)) :=
  let m := match inc.get (sp, d3) with
    | some m => m
    | none => []
  let ds := match m.get n with
    | some ds => ds
    | none => []
  inc.set (sp, d3) (m.set n (insertSet ds d2))

/-- `IDESolver::processNormalFlow` (`IDESolver.h:554-585`). -/
def processNormalFlow (P : Problem N D F L E) (s : St N D E) (d1 : D) (n : N) (d2 : D) :
    St N D E :=
  let f := jumpFunction P s d1 n d2
  { s with
    wl := s.wl ++ (P.icf.succs n).flatMap fun n' =>
      (P.normalFlow n n' d2).map fun d3 =>
        (⟨d1, n', d3⟩, P.alg.extend f (P.normalEdge n d2 n' d3)) }

/-- Pushes of the special-summary branch of `processCall` for one callee (`IDESolver.h:390-411`). -/
def summaryPushes (P : Problem N D F L E) (f : E) (d1 : D) (n : N) (d2 : D)
    (sum : D → List D) : List (PathEdge N D × E) :=
  (P.icf.retSites n).flatMap fun r =>
    (sum d2).map fun d3 => (⟨d1, r, d3⟩, P.alg.extend f (P.sumEdge n d2 r d3))

/-- Pushes of the regular branch of `processCall` for one callee `g` (`IDESolver.h:412-515`).
`extend(extend(f4, fCalleeSummary), f5)` is `:501`. The loop reads `EndsummaryTab`, which
`processCall` does not write, so the pushes of the nested loops are written as a list. -/
def calleePushes (P : Problem N D F L E) (s : St N D E) (f : E) (d1 : D) (n : N) (d2 : D)
    (g : F) : List (PathEdge N D × E) :=
  (P.icf.starts g).flatMap fun sp =>
    (P.callFlow n g d2).flatMap fun d3 =>
      (⟨d3, sp, d3⟩, P.alg.idE) ::
      (endSummary s sp d3).flatMap fun en =>
        (P.icf.retSites n).flatMap fun r =>
          (P.retFlow n g en.1 r en.2.1).map fun d5 =>
            (⟨d1, r, d5⟩,
              P.alg.extend f
                (P.alg.extend (P.alg.extend (P.callEdge n d2 g d3) en.2.2)
                  (P.retEdge n g en.1 en.2.1 r d5)))

/-- The `(SP, d3)` pairs for which `processCall` registers an incoming edge (`IDESolver.h:427-440`). -/
def incomingAdds (P : Problem N D F L E) (n : N) (d2 : D) : List (N × D) :=
  (P.icf.callees n).flatMap fun g =>
    match P.summaryFlow n g with
    | some _ => []
    | none => (P.icf.starts g).flatMap fun sp => (P.callFlow n g d2).map fun d3 => (sp, d3)

/-- Call-to-return pushes of `processCall` (`IDESolver.h:519-547`). -/
def ctrPushes (P : Problem N D F L E) (f : E) (d1 : D) (n : N) (d2 : D) :
    List (PathEdge N D × E) :=
  (P.icf.retSites n).flatMap fun r =>
    (P.ctrFlow n r d2).map fun d3 => (⟨d1, r, d3⟩, P.alg.extend f (P.ctrEdge n d2 r d3))

/-- `IDESolver::processCall` (`IDESolver.h:355-548`). -/
def processCall (P : Problem N D F L E) (s : St N D E) (d1 : D) (n : N) (d2 : D) : St N D E :=
  let f := jumpFunction P s d1 n d2
  { s with
    wl := s.wl ++
      ((P.icf.callees n).flatMap fun g =>
        match P.summaryFlow n g with
        | some sum => summaryPushes P f d1 n d2 sum
        | none => calleePushes P s f d1 n d2 g) ++
      ctrPushes P f d1 n d2
    incoming := (incomingAdds P n d2).foldl (fun inc p => addIncoming inc p.1 p.2 n d2) s.incoming }

/-- The local map `Inc` of `processExit` (`IDESolver.h:898-906`): entries of later start points
overwrite those of earlier ones (`Inc[Entry.first] = ...`, :904). -/
def incMap (P : Problem N D F L E) (s : St N D E) (d1 : D) (n : N) : AMap N (List D) :=
  (P.icf.starts (P.icf.funOf n)).foldl
    (fun inc sp => (incomingAt s sp d1).foldl (fun inc en => inc.set en.1 en.2) inc) []

/-- Pushes of `processExit` for the known incoming calls (`IDESolver.h:911-976`). -/
def exitPushes (P : Problem N D F L E) (s : St N D E) (f : E) (d1 : D) (n : N) (d2 : D)
    (inc : AMap N (List D)) : List (PathEdge N D × E) :=
  inc.flatMap fun en =>
    (P.icf.retSites en.1).flatMap fun r =>
      en.2.flatMap fun d4 =>
        (P.retFlow en.1 (P.icf.funOf n) n r d2).flatMap fun d5 =>
          (reverseLookup s en.1 d4).flatMap fun j =>
            if P.alg.eqE j.2 P.alg.allTop then []
            else [(⟨j.1, r, d5⟩,
              P.alg.extend j.2
                (P.alg.extend (P.alg.extend (P.callEdge en.1 d4 (P.icf.funOf n) d1) f)
                  (P.retEdge en.1 (P.icf.funOf n) n d2 r d5)))]

/-- Pushes of `processExit` for unbalanced returns (`IDESolver.h:984-1014`, `:1026-1032`). -/
def unbalancedPushes (P : Problem N D F L E) (f : E) (n : N) (d2 : D) :
    List (PathEdge N D × E) :=
  (P.icf.callers (P.icf.funOf n)).flatMap fun c =>
    (P.icf.retSites c).flatMap fun r =>
      (P.retFlow c (P.icf.funOf n) n r d2).map fun d5 =>
        (⟨P.zero, r, d5⟩, P.alg.extend f (P.retEdge c (P.icf.funOf n) n d2 r d5))

/-- `IDESolver::processExit` (`IDESolver.h:886-1024`). `addEndSummary` (`:698-703`) overwrites.
`applyUnbalancedRetFlowFunctionSideEffects` (:1019-1022) is a user callback without effect here. -/
def processExit (P : Problem N D F L E) (s : St N D E) (d1 : D) (n : N) (d2 : D) : St N D E :=
  let f := jumpFunction P s d1 n d2
  let inc := incMap P s d1 n
  let s1 : St N D E :=
    { s with
      endSum := (P.icf.starts (P.icf.funOf n)).foldl (fun es sp => es.set (sp, d1, n, d2) f) s.endSum
      wl := s.wl ++ exitPushes P s f d1 n d2 inc }
  if P.followReturnsPastSeeds && inc.isEmpty then
    { s1 with
      wl := s1.wl ++ unbalancedPushes P f n d2
      unbal := (unbalancedPushes P f n d2).foldl (fun u p => insertSet u p.1.n) s1.unbal }
  else s1

/-- `IDESolver::pathEdgeProcessingTask` (`IDESolver.h:706-736`). -/
def pathEdgeProcessingTask (P : Problem N D F L E) (s : St N D E) (d1 : D) (n : N) (d2 : D) :
    St N D E :=
  if P.icf.isCall n then processCall P s d1 n d2
  else
    let s1 := if P.icf.isExit n then processExit P s d1 n d2 else s
    if (P.icf.succs n).isEmpty then s1 else processNormalFlow P s1 d1 n d2

/-- `IDESolver::propagate` (`IDESolver.h:1133-1189`). -/
def propagate (P : Problem N D F L E) (s : St N D E) (p : PathEdge N D) (f : E) : St N D E :=
  let jumpFnE := jumpFunction P s p.d1 p.n p.d2
  let fPrime := P.alg.combine jumpFnE f
  if P.alg.eqE fPrime jumpFnE then s
  else
    pathEdgeProcessingTask P { s with jump := s.jump.set (p.d1, p.n, p.d2) fPrime } p.d1 p.n p.d2

/-- `IDESolver::doNext` (`IDESolver.h:1758-1768`): take the back of the worklist and propagate it.
`none` models undefined behaviour: `WorkList.back()` on an empty vector (the `assert` of :1759). -/
def doNext (P : Problem N D F L E) (s : St N D E) : Option (St N D E) :=
  match s.wl.getLast? with
  | none => none
  | some x => some (propagate P { s with wl := s.wl.dropLast } x.1 x.2)

/-- One solver step taking *any* worklist element (order abstraction of `doNext`). -/
inductive SStep (P : Problem N D F L E) : St N D E → St N D E → Prop
  | take (s : St N D E) (a b : List (PathEdge N D × E)) (x : PathEdge N D × E)
      (h : s.wl = a ++ x :: b) : SStep P s (propagate P { s with wl := a ++ b } x.1 x.2)

/-- The seeds after `submitInitialSeeds` added missing zero facts (`IDESolver.h:842-850`).
`Seeds` is a map, so facts are looked up by key. -/
def seedsWithZero [JoinLat L] (P : Problem N D F L E) : List (N × List (D × L)) :=
  P.seeds.map fun p =>
    if P.zero ∈ p.2.map Prod.fst then p else (p.1, p.2 ++ [(P.zero, JoinLat.bottom)])

/-- State after `doInitialize` (`IDESolver.h:1726-1756`), i.e. after `submitInitialSeeds`
(`:864-875`) pushed a self loop with the identity for each seed. -/
def init [JoinLat L] (P : Problem N D F L E) : St N D E :=
  { wl := (seedsWithZero P).flatMap fun p => p.2.map fun q => (⟨q.1, p.1, q.1⟩, P.alg.idE)
    jump := [], endSum := [], incoming := [], unbal := [] }

/-- States reachable by solver steps, in any order of worklist processing. -/
inductive Reach [JoinLat L] (P : Problem N D F L E) : St N D E → Prop
  | init : Reach P (init P)
  | step {s t : St N D E} : Reach P s → SStep P s t → Reach P t

/-! ## Phase II -/

/-- Phase II state: `ValTab` and `ValuePropWL` (`IDESolver.h:1811`, `:1842`). -/
structure VS (N D L : Type) where
  tab : AMap (N × D) L
  vwl : List (N × D)

/-- `IDESolver::val` (`IDESolver.h:644-650`). -/
def val [JoinLat L] (v : VS N D L) (n : N) (d : D) : L :=
  match v.tab.get (n, d) with
  | some l => l
  | none => JoinLat.top

/-- `IDESolver::setVal` (`IDESolver.h:652-668`). -/
def setVal (v : VS N D L) (n : N) (d : D) (l : L) : VS N D L :=
  { v with tab := v.tab.set (n, d) l }

/-- `IDESolver::propagateValue` (`IDESolver.h:635-642`). -/
def propagateValue [JoinLat L] [DecidableEq L] (v : VS N D L) (n : N) (d : D) (l : L) : VS N D L :=
  let l' := JoinLat.join (val v n d) l
  if l' = val v n d then v
  else { setVal v n d l' with vwl := v.vwl ++ [(n, d)] }

/-- `IDESolver::propagateValueAtStart` (`IDESolver.h:587-606`). -/
def propagateValueAtStart [JoinLat L] [DecidableEq L] (P : Problem N D F L E)
    (J : AMap (D × N × D) E) (v : VS N D L) (n : N) (d : D) : VS N D L :=
  (P.icf.callsIn (P.icf.funOf n)).foldl
    (fun v c => (forwardLookup J d c).foldl
      (fun v en => propagateValue v c en.1 (P.alg.ap en.2 (val v n d))) v) v

/-- `IDESolver::propagateValueAtCall` (`IDESolver.h:608-633`). Note that special summaries are not
consulted here. -/
def propagateValueAtCall [JoinLat L] [DecidableEq L] (P : Problem N D F L E)
    (v : VS N D L) (n : N) (d : D) : VS N D L :=
  (P.icf.callees n).foldl
    (fun v g => (P.callFlow n g d).foldl
      (fun v d' => (P.icf.starts g).foldl
        (fun v sp => propagateValue v sp d' (P.alg.ap (P.callEdge n d g d') (val v n d))) v) v) v

/-- `Seeds.containsInitialSeedsFor(n)` (`InitialSeeds.h:60-63`). -/
def containsSeedsFor (P : Problem N D F L E) (n : N) : Bool :=
  (P.seeds.map Prod.fst).contains n

/-- `IDESolver::valuePropagationTask` (`IDESolver.h:739-754`). -/
def valuePropagationTask [JoinLat L] [DecidableEq L] (P : Problem N D F L E) (s : St N D E)
    (v : VS N D L) (n : N) (d : D) : VS N D L :=
  let v1 := if P.icf.isStart n || containsSeedsFor P n || s.unbal.contains n
    then propagateValueAtStart P s.jump v n d else v
  if P.icf.isCall n then propagateValueAtCall P v1 n d else v1

/-- The seed map used by `submitInitialValues`, with unbalanced return sites added
(`IDESolver.h:791-796`). -/
def allSeeds [JoinLat L] (P : Problem N D F L E) (s : St N D E) : List (N × List (D × L)) :=
  seedsWithZero P ++
    (s.unbal.filter (fun n => !containsSeedsFor P n)).map fun n => (n, [(P.zero, JoinLat.top)])

/-- Loop body of `submitInitialValues` for one seed (`IDESolver.h:799-812`). -/
def submitSeed [JoinLat L] [DecidableEq L] (P : Problem N D F L E) (s : St N D E)
    (v : VS N D L) (n : N) (q : D × L) : VS N D L :=
  valuePropagationTask P s (setVal v n q.1 (JoinLat.join q.2 (val v n q.1))) n q.1

/-- `IDESolver::submitInitialValues` (`IDESolver.h:790-814`). -/
def submitInitialValues [JoinLat L] [DecidableEq L] (P : Problem N D F L E) (s : St N D E) :
    VS N D L :=
  (allSeeds P s).foldl (fun v p => p.2.foldl (fun v q => submitSeed P s v p.1 q) v)
    { tab := [], vwl := [] }

/-- One iteration of the loop of `computeValues` (`IDESolver.h:821-825`), taking any element
(the code takes the back of the vector). -/
inductive VStep [JoinLat L] [DecidableEq L] (P : Problem N D F L E) (s : St N D E) :
    VS N D L → VS N D L → Prop
  | take (v : VS N D L) (a b : List (N × D)) (x : N × D) (h : v.vwl = a ++ x :: b) :
      VStep P s v (valuePropagationTask P s { v with vwl := a ++ b } x.1 x.2)

/-- Phase II(i) states reachable for the Phase I result `s`. -/
inductive VReach [JoinLat L] [DecidableEq L] (P : Problem N D F L E) (s : St N D E) :
    VS N D L → Prop
  | init : VReach P s (submitInitialValues P s)
  | step {v w : VS N D L} : VReach P s v → VStep P s v w → VReach P s w

/-- Deterministic instance of `VStep`: the code pops the back (`IDESolver.h:822-824`). -/
def vNext [JoinLat L] [DecidableEq L] (P : Problem N D F L E) (s : St N D E) (v : VS N D L) :
    Option (VS N D L) :=
  match v.vwl.getLast? with
  | none => none
  | some x => some (valuePropagationTask P s { v with vwl := v.vwl.dropLast } x.1 x.2)

/-- `IDESolver::valueComputationTask` (`IDESolver.h:757-777`), Phase II(ii). -/
def valueComputationTask [JoinLat L] (P : Problem N D F L E) (J : AMap (D × N × D) E)
    (v : VS N D L) : VS N D L :=
  P.icf.nonCallStart.foldl
    (fun v n => (P.icf.starts (P.icf.funOf n)).foldl
      (fun v sp => (lookupByTarget J n).foldl
        (fun v c => setVal v n c.2.1
          (JoinLat.join (val v n c.2.1) (P.alg.ap c.2.2 (val v sp c.1)))) v) v) v

/-- A complete run of `solve()`: Phase I until the worklist is empty, Phase II(i) until the value
worklist is empty, then Phase II(ii) (`IDESolver.h:817-832`, `:1770-1791`). `Solved P s v` says `s`
and `v` are the final jump functions and value table of some such run, in any processing order. -/
inductive Solved [JoinLat L] [DecidableEq L] (P : Problem N D F L E) :
    St N D E → VS N D L → Prop
  | intro {s : St N D E} {v : VS N D L} (hs : Reach P s) (hw : s.wl = [])
      (hv : VReach P s v) (hvw : v.vwl = []) :
      Solved P s (valueComputationTask P s.jump v)

/-- `SolverResultsBase::resultAt` on the value table: the stored value if any
(`SolverResults.h:60-64`; the default for absent cells is treated in `Verif.Store`). -/
def resultAt (v : VS N D L) (n : N) (d : D) : Option L := v.tab.get (n, d)

/-- `ifdsResultsAt(n)`: key set of the row of `n` (`SolverResults.h:73-80`, `IFDSSolver.h:51-58`). -/
def ifdsResultsAt (v : VS N D L) (n : N) (d : D) : Prop := ∃ l, v.tab.get (n, d) = some l

/-! ## Executable driver (the code's LIFO order) -/

/-- Phase I loop `while (next())` (`IDESolverAPIMixin.h:439-443`) with fuel; `none` = out of fuel. -/
def runPhase1 (P : Problem N D F L E) : Nat → St N D E → Option (St N D E)
  | 0, s => if s.wl.isEmpty then some s else none
  | k + 1, s => match doNext P s with
    | none => some s
    | some t => runPhase1 P k t

/-- Phase II(i) loop (`IDESolver.h:821-825`) with fuel. -/
def runPhase2 [JoinLat L] [DecidableEq L] (P : Problem N D F L E) (s : St N D E) :
    Nat → VS N D L → Option (VS N D L)
  | 0, v => if v.vwl.isEmpty then some v else none
  | k + 1, v => match vNext P s v with
    | none => some v
    | some w => runPhase2 P s k w

/-- `solve()` with fuel, in the code's processing order. -/
def solve [JoinLat L] [DecidableEq L] (P : Problem N D F L E) (fuel : Nat) :
    Option (St N D E × VS N D L) := do
  let s ← runPhase1 P fuel (init P)
  let v ← runPhase2 P s fuel (submitInitialValues P s)
  return (s, valueComputationTask P s.jump v)

end
end Phasar.IDE
