import Verif.Base.AMap
import Verif.Mono.CallString
/-!
# Model of `InterMonoSolver`

Models `include/phasar/DataFlow/Mono/Solver/InterMonoSolver.h` (printing left out).  The ICFG and the
problem are the fields of `MProb`.
-/
set_option linter.unusedSectionVars false
namespace Phasar.InterMono

/-- The inputs of the solver: the parts of `InterMonoProblem`
(`include/phasar/DataFlow/Mono/InterMonoProblem.h:38-96`) and of the ICFG the solver calls. -/
structure MProb (N F C : Type) where
  /-- the template parameter `K`, `InterMonoSolver.h:30`. -/
  K : Nat
  /-- `ICF->getFunctionOf`. -/
  funOf : N → F
  /-- `ICF->getAllControlFlowEdges`. -/
  edgesOf : F → List (N × N)
  /-- `ICF->isCallSite`. -/
  isCall : N → Bool
  /-- `ICF->isExitInst`. -/
  isExit : N → Bool
  /-- `ICF->getCalleesOfCallAt`. -/
  callees : N → List F
  /-- `ICF->getStartPointsOf`. -/
  starts : F → List N
  /-- `ICF->getExitPointsOf`. -/
  exits : F → List N
  /-- `ICF->getReturnSitesOfCallAt`. -/
  retSites : N → List N
  /-- `ICF->getCallersOf`. -/
  callers : F → List N
  /-- `ICF->getSuccsOf`. -/
  succs : N → List N
  /-- `ICF->getPredsOf`. -/
  preds : N → List N
  /-- `ICF->isBranchTarget`. -/
  branchTarget : N → N → Bool
  /-- `normalFlow`. -/
  normalFlow : N → C → C
  /-- `callFlow`. -/
  callFlow : N → F → C → C
  /-- `returnFlow(CallSite, Callee, ExitStmt, RetSite, In)`. -/
  returnFlow : N → F → N → N → C → C
  /-- `callToRetFlow(CallSite, RetSite, Callees, In)`. -/
  ctrFlow : N → N → List F → C → C
  /-- `merge`. -/
  merge : C → C → C
  /-- `equal_to`. -/
  equalTo : C → C → Bool
  /-- `allTop`. -/
  allTop : C
  /-- `mono_container_t{}`. -/
  dflt : C
  /-- `c.insert(first, last)`. -/
  ins : C → C → C
  /-- `initialSeeds()`, in iteration order. -/
  seeds : List (N × C)

/-- `CallStringCTX<n_t, K>`. -/
abbrev Ctx (N : Type) := List N

/-- The type of `Analysis`, `InterMonoSolver.h:43-45`. -/
abbrev An (N C : Type) := AMap N (AMap (Ctx N) C)

/-- The state of the solver, `InterMonoSolver.h:42-46`. `ub` records that a map was inserted into while a
range-based `for` iterates over it. -/
structure St (N F C : Type) where
  wl : List (N × N)
  an : An N C
  added : List F
  ub : Bool

variable {N F C : Type} [DecidableEq N] [DecidableEq F]

/-- The map `Analysis[n]`; a missing one reads as empty. -/
def row (A : An N C) (n : N) : AMap (Ctx N) C :=
  match A.get n with
  | some m => m
  | none => []

/-- The value `Analysis[n][ctx]`; a missing one reads as `mono_container_t{}`. -/
def val (P : MProb N F C) (A : An N C) (n : N) (x : Ctx N) : C :=
  match (row A n).get x with
  | some c => c
  | none => P.dflt

/-- `Analysis[n][ctx] = c`. -/
def put (A : An N C) (n : N) (x : Ctx N) (c : C) : An N C := A.set n ((row A n).set x c)

/-- The side effect of reading `Analysis[n][ctx]`: missing entries are inserted. -/
def touch (P : MProb N F C) (A : An N C) (n : N) (x : Ctx N) : An N C :=
  match (row A n).get x with
  | some _ => A
  | none => put A n x P.dflt

/-- Whether `Analysis[n][ctx]` inserts a new context. -/
def fresh (A : An N C) (n : N) (x : Ctx N) : Bool := ((row A n).get x).isNone

/-- Initialise the statements of the given edges with the empty context, `InterMonoSolver.h:58-66` and
`111-119`. -/
def initEdges (P : MProb N F C) (A : An N C) (es : List (N × N)) : An N C :=
  let A := es.foldl (fun A e => put A e.1 [] P.allTop) A
  match es.getLast? with
  | some e => put A e.2 [] P.allTop
  | none => A

/-- `initialize()`, `InterMonoSolver.h:50-71`. -/
def initSt (P : MProb N F C) : St N F C :=
  P.seeds.foldl (fun s x =>
    let es := P.edgesOf (P.funOf x.1)
    let A := initEdges P s.an es
    { s with wl := es ++ s.wl, an := put A x.1 [] (P.ins (val P A x.1 []) x.2) }) ⟨[], [], [], false⟩

/-- `addCalleesToWorklist`, `InterMonoSolver.h:92-127`: the loop over the callees; the `break` at line 98 ends
it. -/
def addCallees (P : MProb N F C) (src : N) : List F → St N F C → St N F C
  | [], s => s
  | f :: fs, s =>
    if f ∈ s.added then s
    else
      let es := P.edgesOf f
      addCallees P src fs
        { s with
          added := f :: s.added
          wl := es ++ (s.wl ++ (P.starts f).map (fun n => (src, n))) ++
            (P.exits f).flatMap (fun e => (P.retSites src).map (fun r => (e, r)))
          an := initEdges P s.an es }

/-- `addToWorklist`, `InterMonoSolver.h:129-153`: the edges pushed. -/
def pushed (P : MProb N F C) (src dst : N) : List (N × N) :=
  (src, dst) :: ((P.succs dst).map (fun n => (dst, n)) ++
    (if P.isCall dst then (P.callees dst).flatMap (fun f => (P.starts f).map (fun n => (dst, n))) else []) ++
    (if P.isExit dst then
      (P.callers (P.funOf dst)).flatMap (fun c => (P.succs c).map (fun n => (dst, n))) else []))

/-- The merge over the other predecessors in `processNormal`, `InterMonoSolver.h:186-197`. -/
def mergePreds (P : MProb N F C) (src : N) (x : Ctx N) : List N → An N C → C → An N C × C
  | [], A, o => (A, o)
  | p :: ps, A, o =>
    if p = src then mergePreds P src x ps A o
    else mergePreds P src x ps (touch P A p x) (P.merge o (P.normalFlow p (val P A p x)))

/-- Compare the out-fact with `Analysis[dst][ctx]` and, if different, overwrite it and push the edges:
`InterMonoSolver.h:202-215` (`processNormal`), `230-251` and `263-279` (`processCall`). `src` is the statement
whose map is being iterated. -/
def update (P : MProb N F C) (src dst : N) (x : Ctx N) (o : C) (s : St N F C) : St N F C :=
  let s := { s with ub := s.ub || (decide (dst = src) && fresh s.an dst x) }
  if P.equalTo o (val P s.an dst x) then { s with an := touch P s.an dst x }
  else { s with an := put s.an dst x o, wl := s.wl ++ pushed P src dst }

/-- One iteration of `processNormal` for the context `x`, `InterMonoSolver.h:182-216`. -/
def normalCtx (P : MProb N F C) (src dst : N) (s : St N F C) (x : Ctx N) : St N F C :=
  let o := P.normalFlow src (val P s.an src x)
  let r := if P.branchTarget src dst then mergePreds P src x (P.preds dst) s.an o else (s.an, o)
  update P src dst x r.2 { s with an := r.1 }

/-- One iteration of the loop over contexts for a call edge, `InterMonoSolver.h:226-252`. -/
def callCtx (P : MProb N F C) (src dst : N) (s : St N F C) (x : Ctx N) : St N F C :=
  update P src dst (CallString.push P.K x src) (P.callFlow src (P.funOf dst) (val P s.an src x)) s

/-- One iteration of the loop over contexts for a call-to-return edge, `InterMonoSolver.h:258-280`. -/
def ctrCtx (P : MProb N F C) (src dst : N) (s : St N F C) (x : Ctx N) : St N F C :=
  update P src dst x (P.ctrFlow src dst (P.callees src) (val P s.an src x)) s

/-- The update of one return site in `processExit`, `InterMonoSolver.h:320-342`: no edge is pushed. -/
def retSite (P : MProb N F C) (src dst : N) (x : Ctx N) (o : C) (s : St N F C) (r : N) : St N F C :=
  let s := { s with ub := s.ub || (decide (r = src) && fresh s.an r x) }
  if P.equalTo o (val P s.an r x) then { s with an := touch P s.an r x }
  else
    let m := P.ins (P.ins P.dflt (val P s.an r x)) o
    let A := put s.an r x m
    { s with an := put A dst x m, ub := s.ub || (decide (dst = src) && fresh A dst x) }

/-- Remove duplicates, keeping the first occurrence: stand-in for the `std::set` of return sites,
`InterMonoSolver.h:307-312`, whose order (by address) is not modelled. -/
def dedup : List N → List N
  | [] => []
  | n :: ns => n :: (dedup ns).filter (fun m => m ≠ n)

/-- One iteration of `processExit` for the context `x`, `InterMonoSolver.h:291-344`; `out` is the local map
`Out`. -/
def exitCtx (P : MProb N F C) (src dst : N) (so : St N F C × AMap (Ctx N) C) (x : Ctx N) :
    St N F C × AMap (Ctx N) C :=
  let s := so.1
  let out := so.2
  let callSites := match x.getLast? with
    | none => P.callers (P.funOf src)
    | some c => [c]
  let y := (CallString.pop x).1
  let rs := dedup (callSites.flatMap P.retSites)
  let old := match out.get y with
    | some c => c
    | none => P.dflt
  let o := callSites.foldl
    (fun o c => P.ins o (P.returnFlow c (P.funOf src) src dst (val P s.an src x))) old
  (rs.foldl (retSite P src dst y o) s, out.set y o)

/-- The contexts of `Analysis[n]` a range-based `for` visits. -/
def ctxs (A : An N C) (n : N) : List (Ctx N) := (row A n).map Prod.fst

/-- One iteration of the `while` loop of `solve()`, `InterMonoSolver.h:360-379`, with `processNormal`
(`175-217`), `processCall` (`219-281`) and `processExit` (`283-345`). -/
def step (P : MProb N F C) (src dst : N) (s : St N F C) : St N F C :=
  if P.isCall src then
    let s := addCallees P src (P.callees src) s
    if P.funOf src = P.funOf dst then (ctxs s.an src).foldl (ctrCtx P src dst) s
    else (ctxs s.an src).foldl (callCtx P src dst) s
  else if P.isExit src then ((ctxs s.an src).foldl (exitCtx P src dst) (s, [])).1
  else (ctxs s.an src).foldl (normalCtx P src dst) s

/-- `solve()`, `InterMonoSolver.h:358-380`, for at most `k` iterations; `none` when the worklist is not empty by
then. -/
def loop (P : MProb N F C) : Nat → St N F C → Option (St N F C)
  | k, ⟨[], A, f, u⟩ => match k with | _ => some ⟨[], A, f, u⟩
  | 0, ⟨_ :: _, _, _, _⟩ => none
  | k + 1, ⟨e :: wl, A, f, u⟩ => loop P k (step P e.1 e.2 ⟨wl, A, f, u⟩)

/-- `solve()` on a new solver: the final `Analysis`. -/
def solve (P : MProb N F C) (k : Nat) : Option (An N C) := (loop P k (initSt P)).map St.an

/-- `getResultsAt(n)`, `InterMonoSolver.h:382-388`. -/
def getResultsAt (P : MProb N F C) (A : An N C) (n : N) : C :=
  (row A n).foldl (fun r x => P.ins r x.2) P.dflt

/-- Specification: the order of the merge operator. -/
def Le (P : MProb N F C) (a b : C) : Prop := P.merge a b = b

/-- Specification: `Reach P n st c`: the facts `c` arise along a realizable path from a seed to `n`, with the
call sites `st` not returned from, innermost last. -/
inductive Reach (P : MProb N F C) : N → List N → C → Prop
  | seed {n : N} {c : C} : (n, c) ∈ P.seeds → Reach P n [] c
  | normal {n d : N} {st : List N} {c : C} : Reach P n st c → P.isCall n = false → P.isExit n = false →
      d ∈ P.succs n → Reach P d st (P.normalFlow n c)
  | call {n : N} {f : F} {s : N} {st : List N} {c : C} : Reach P n st c → P.isCall n = true →
      f ∈ P.callees n → s ∈ P.starts f → Reach P s (st ++ [n]) (P.callFlow n f c)
  | ctr {n d : N} {st : List N} {c : C} : Reach P n st c → P.isCall n = true → d ∈ P.retSites n →
      Reach P d st (P.ctrFlow n d (P.callees n) c)
  | ret {e n r : N} {st : List N} {c : C} : Reach P e (st ++ [n]) c → P.isExit e = true → r ∈ P.retSites n →
      Reach P r st (P.returnFlow n (P.funOf e) e r c)

end Phasar.InterMono
