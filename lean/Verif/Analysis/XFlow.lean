import Verif.Analysis.AML
import Verif.Analysis.XTaint
import Verif.IDE.Model
/-!
# The flow functions of the extended taint analysis

Flow functions, edge functions, leaks and their post-processing of
`lib/PhasarLLVM/DataFlow/IfdsIde/Problems/IDEExtendedTaintAnalysis.cpp` and
`include/phasar/PhasarLLVM/DataFlow/IfdsIde/Problems/IDEExtendedTaintAnalysis.h`, on the abstract memory locations of
`Verif/Analysis/AML.lean` and the sanitizer values of `Verif/Analysis/XTaint.lean`.
-/
namespace Phasar.XFlow
open Phasar AML

/-- The instructions as the analysis distinguishes them (`IDEExtendedTaintAnalysis.cpp:86-112, 562-573`).  Operands are values by
number; the result of the instruction `n` is the value `n`. -/
inductive Inst where
  | store (v ptr : Nat)
  | phi (ins : List Nat)
  | call (args : List Nat)
  | memset (dst v : Nat)
  | memcpy (dst src : Nat)
  | ret (v : Option Nat)
  | other
deriving DecidableEq, Repr

/-- The module, the ICFG, the alias information, the dominators and the taint configuration as far as the analysis looks at them.
`ir`: a value with its operands as `createImpl` sees them; `fnOf`: the function of an instruction or argument;
`isGlobal`: `llvm::GlobalValue`; `isConst`: `llvm::Constant`; `isConstVar`: a `GlobalVariable` that is constant; `isPtr`: the value has
pointer type; `vaTag`: `getVAListTagOrNull` (`IDEExtendedTaintAnalysis.cpp:362-383`); `size`: the allocation size of the type of a
value; `alias ptr n`: `getAliasSet`; `must`: the alias information answers `MustAlias`; `genAt`, `leakAt`, `saniAt`: what
`forAllGeneratedValuesAt`, `forAllLeakCandidatesAt` and `forAllSanitizedValuesAt` call back with (`XTaintAnalysisBase.cpp:18-49`);
`isSource n v`: `generateFromZero` finds `v` a source at `n` (`IDEExtendedTaintAnalysis.cpp:216-218`); `isSink n v`: `isSink`
(`XTaintAnalysisBase.cpp:51-67`); `op0`: the first operand if it is an instruction; `loadOrCall`: a load or a call; `bbo`: the order of
instructions; `strong`: not `DisableStrongUpdates`; `zeroV`: the zero value (`LLVMZeroValue.h:53`); `autoSeed n`: the facts of
`TSF->makeInitialSeeds()` for `n`; `entry`: the start points of the entry functions (`IDEExtendedTaintAnalysis.cpp:40-64`). -/
structure Prog where
  ir : Nat → IR
  bound : Nat
  inst : Nat → Inst
  icf : IDE.ICFG Nat Nat
  fnOf : Nat → Option Nat
  isGlobal : Nat → Bool
  isConst : Nat → Bool
  isConstVar : Nat → Bool
  isPtr : Nat → Bool
  params : Nat → List Nat
  isDecl : Nat → Bool
  isIntrinsic : Nat → Bool
  vaTag : Nat → Option Nat
  size : Nat → Int
  alias : Nat → Nat → List Nat
  must : Nat → Nat → Bool
  genAt : Nat → Option Nat → List Nat
  leakAt : Nat → Option Nat → List Nat
  saniAt : Nat → Option Nat → List Nat
  isSource : Nat → Nat → Bool
  isSink : Nat → Nat → Bool
  op0 : Nat → Option Nat
  loadOrCall : Nat → Bool
  bbo : XTaint.Prog Nat
  strong : Bool
  zeroV : Nat
  autoSeed : Nat → List Nat
  entry : List Nat

/-- The answers of the fact factory (`AbstractMemoryLocationFactory.h:162-208`). -/
structure Asks where
  fact : Nat → Loc
  ind : Loc → List Int → Loc
  offs : Loc → List Int → Loc
  to : Loc → Loc → Nat → Loc
  frm : Loc → Loc → Loc

/-- The answers of a factory.  In the code every call may add locations to the pool; a call made again has the same answer
(`C65_repeat`), so the answers during an analysis are those of the factory at its end (`C66_answers`).  The default is only used where
`C65_defined` excludes it. -/
def Asks.of (ir : Nat → IR) (bound : Nat) (F : Fac) : Asks where
  fact := fun v => ((exec ir bound F (.create v)).map Prod.fst).getD ⟨v, [], 0⟩
  ind := fun l i => ((exec ir bound F (.indirection l i)).map Prod.fst).getD l
  offs := fun l o => ((exec ir bound F (.offsets l o)).map Prod.fst).getD l
  to := fun a f t => ((exec ir bound F (.transferTo a f t)).map Prod.fst).getD a
  frm := fun a t => ((exec ir bound F (.transferFrom a t)).map Prod.fst).getD a

/-- The result of a flow function: the facts, what is inserted into `Leaks`, and what is printed at once
(`IDEExtendedTaintAnalysis.cpp:226-234`).  A leak is the instruction and the leaked value. -/
structure Out where
  facts : List Loc
  leaks : List (Nat × Nat) := []
  printed : List (Nat × Nat) := []
deriving DecidableEq, Repr

namespace Prog
variable (p : Prog) (q : Asks)

/-- `createZeroValue` (`IDEExtendedTaintAnalysis.cpp:66-68`, `AbstractMemoryLocation.cpp:31-32`). -/
def zero : Loc := ⟨p.zeroV, [], 0⟩

/-- `isZeroValue` (`IDEExtendedTaintAnalysis.cpp:70-72`, `AbstractMemoryLocation.cpp:50-52`). -/
def isZero (l : Loc) : Bool := l.base == p.zeroV

/-- `forEachAliasOf` (`IDEExtendedTaintAnalysis.h:125-155`); `HasPreciseAliasInfo` is always false. -/
def aliasesOf (n ptr : Nat) : List Nat :=
  (p.alias ptr n).filter fun a => !p.isConstVar a && !((q.fact a).base == (q.fact ptr).base && decide (q.fact a ≠ q.fact ptr))

/-- `reportLeakIfNecessary` for the pointer and its aliases (`IDEExtendedTaintAnalysis.cpp:138-142, 196-202, 226-234`): the pairs that
are inserted and printed. -/
def storeLeaks (n ptr v : Nat) : List (Nat × Nat) :=
  ((ptr :: p.aliasesOf q n ptr).filter (p.isSink n)).map fun _ => (n, v)

/-- `identity` (`IDEExtendedTaintAnalysis.cpp:771-792`): whether a location belongs to the function of the instruction. -/
def inScope (n : Nat) (l : Loc) : Bool := p.isGlobal l.base || p.fnOf l.base == some (p.icf.funOf n)

/-- The facts of `propagateAtStore` (`IDEExtendedTaintAnalysis.cpp:164-189`). -/
def storeFacts (n ptr : Nat) (off : List Int) (s : Loc) : List Loc :=
  s :: q.ind (q.fact ptr) off ::
    (((p.aliasesOf q n ptr).filter fun a => !(p.isConst a && !p.isGlobal a)).map fun a => q.ind (q.fact a) off).filter (p.inScope n)

/-- `getStoreFF` with `propagateAtStore` and `generateFromZero` (`IDEExtendedTaintAnalysis.cpp:115-224`). -/
def storeFlow (n ptr v lvl : Nat) (s : Loc) : Out :=
  if p.isZero s then
    if p.isSource n v then
      if q.fact ptr = s then { facts := [s] }
      else { facts := [s, q.fact ptr], leaks := p.storeLeaks q n ptr v, printed := p.storeLeaks q n ptr v }
    else { facts := [s] }
  else if equivPA (q.fact v) s lvl then
    { facts := p.storeFacts q n ptr (sub s (q.fact v)) s,
      leaks := if equiv (q.fact v) s then p.storeLeaks q n ptr v else [],
      printed := if equiv (q.fact v) s then p.storeLeaks q n ptr v else [] }
  else { facts := [s] }

/-- `handleConfig` (`IDEExtendedTaintAnalysis.cpp:261-293`). -/
def configFlow (n : Nat) (gen leak : List Nat) (s : Loc) : Out :=
  if p.isZero s then { facts := s :: gen.map q.fact }
  else { facts := [s], leaks := (leak.filter fun k => equiv s (q.fact k)).map fun k => (n, k) }

/-- `getNormalFlowFunction` (`IDEExtendedTaintAnalysis.cpp:76-113`). -/
def normalFlow (n : Nat) (s : Loc) : Out :=
  match p.inst n with
  | .store v ptr => p.storeFlow q n ptr v 1 s
  | i =>
    if p.genAt n none ≠ [] ∨ p.leakAt n none ≠ [] then p.configFlow q n (p.genAt n none) (p.leakAt n none) s
    else match i with
      | .phi ins => if ins.any (fun v => equiv s (q.fact v)) then { facts := [s, q.fact n] } else { facts := [s] }
      | _ => { facts := [s] }

/-- `CallBase::args()` (`IDEExtendedTaintAnalysis.cpp:319-320, 435-436, 641, 685`).  Simplification: the length and the flag of a memory
intrinsic are left out; there the call and return functions are not used, and its callee is an intrinsic. -/
def args (n : Nat) : List Nat :=
  match p.inst n with
  | .call as => as
  | .memset d v => [d, v]
  | .memcpy d s => [d, s]
  | _ => []

/-- The loop over the variable arguments (`IDEExtendedTaintAnalysis.cpp:340-354`). -/
def varFacts (va : Nat) (s : Loc) : List Nat → Int → List Loc
  | [], _ => []
  | a :: r, k =>
    (if equivPA (q.fact a) s 1 then [q.ind (q.to s (q.fact a) va) [k]] else []) ++ varFacts va s r (k + p.size a)

/-- `getCallFlowFunction` (`IDEExtendedTaintAnalysis.cpp:295-360`). -/
def callFlow (n f : Nat) (s : Loc) : List Loc :=
  if p.isDecl f then [s]
  else if p.isZero s then [s]
  else
    (if p.isGlobal s.base then [s] else []) ++
    ((p.params f).zip (p.args n)).filterMap (fun x => if equivPA (q.fact x.2) s 1 then some (q.to s (q.fact x.2) x.1) else none) ++
    match (if (p.args n).length > (p.params f).length then p.vaTag f else none) with
    | none => []
    | some va => p.varFacts q va s ((p.args n).drop (p.params f).length) 0

/-- `getRetFlowFunction` (`IDEExtendedTaintAnalysis.cpp:385-476`); the call site is `none` for the unbalanced return from the caller of
the global constructors.  The outer `none` is the failed `cast<ReturnInst>` for a call site and another exit statement. -/
def retFlow? (c : Option Nat) (f e : Nat) (s : Loc) : Option (List Loc) :=
  match c with
  | none => some (if p.isGlobal s.base then [s] else [])
  | some c =>
    match p.inst e with
    | .ret rv =>
      if p.isZero s then some [s]
      else some (
        ((p.params f).zip (p.args c)).filterMap
          (fun x => if p.isPtr x.1 && equiv s (q.fact x.1) then some (q.frm s (q.fact x.2)) else none) ++
        (match rv with
          | some r => if equiv s (q.fact r) then [q.offs (q.fact c) (sub s (q.fact r))] else []
          | none => []) ++
        (if p.isGlobal s.base then [s] else []))
    | _ => none

/-- `getCallToRetFlowFunction` (`IDEExtendedTaintAnalysis.cpp:478-542`). -/
def ctrFlow (n : Nat) (s : Loc) : List Loc :=
  if (p.icf.callees n).any p.isDecl then [s]
  else if s = p.zero then [] else [s]

/-- `getSummaryFlowFunction` (`IDEExtendedTaintAnalysis.cpp:544-576`); `none`: the null pointer. -/
def summaryFlow (n f : Nat) : Option (Loc → Out) :=
  if p.genAt n (some f) ≠ [] ∨ p.leakAt n (some f) ≠ [] then
    some (p.configFlow q n (p.genAt n (some f)) (p.leakAt n (some f)))
  else match p.inst n with
    | .memset dst v => some (p.storeFlow q n dst v 1)
    | .memcpy dst src => some (p.storeFlow q n dst src 2)
    | _ => none

/-! ### Edge functions -/

end Prog

/-- The edge functions the analysis creates: the identity, `GenEdgeFunction`, `KillIfSanitizedEdgeFunction` and `TransferEdgeFunction`
(`IDEExtendedTaintAnalysis.cpp:580-744`). -/
inductive EFn where
  | id
  | gen (i : Option Nat)
  | kill (load : Option Nat)
  | transfer (load to : Option Nat)
deriving DecidableEq, Repr

/-- `computeTarget` (`EdgeFunctionUtils.h:26-31, 157-161`, `KillIfSanitizedEdgeFunction.cpp:21-39`, `TransferEdgeFunction.cpp:20-33`). -/
def EFn.ap (G : XTaint.Prog Nat) : EFn → XTaint.Dom Nat → XTaint.Dom Nat
  | .id, x => x
  | .gen i, _ => XTaint.ofPtr i
  | .kill l, x => XTaint.kill G l x
  | .transfer l t, x => XTaint.transfer G l t x

namespace Prog
variable (p : Prog) (q : Asks)

/-- `getApproxLoadFrom` of an instruction (`IDEExtendedTaintAnalysis.cpp:808-821`); `none` if the recursion is deeper than the fuel. -/
def approxInst : Nat → Nat → Option Nat
  | 0, _ => none
  | fuel + 1, v =>
    if p.loadOrCall v then some v
    else match p.op0 v with
      | some o => approxInst fuel o
      | none => some v

/-- `getApproxLoadFrom` of a value (`IDEExtendedTaintAnalysis.cpp:823-834`): the null pointer for pointers and for values that are no
instructions. -/
def approx (isInst : Nat → Bool) (fuel v : Nat) : Option (Option Nat) :=
  if p.isPtr v then some none
  else if isInst v then (p.approxInst fuel v).map some
  else some none

/-- `isMustAlias` (`IDEExtendedTaintAnalysis.cpp:252-259`). -/
def sanitizes (l : List Nat) (d : Loc) : Bool := l.any fun k => equiv (q.fact k) d

/-- `AbstractMemoryLocation::mustAlias` (`AbstractMemoryLocation.cpp:109-137`) with the program's alias information. -/
def mustAl (a b : Loc) : Bool := mustAlias p.fnOf p.must a b

/-- `getNormalEdgeFunction` (`IDEExtendedTaintAnalysis.cpp:580-628`). -/
def normalEdge (n : Nat) (d d' : Loc) : EFn :=
  if p.isZero d && p.isZero d' then .id
  else if p.isZero d && !p.isZero d' then .gen none
  else match p.inst n with
    | .store _ ptr =>
      if p.strong then
        if p.mustAl d (q.fact ptr) then .gen (some n)
        else if sanitizes q (p.saniAt n none) d then .gen (some n)
        else .id
      else .id
    | _ => .id

/-- `getCallEdgeFunction` (`IDEExtendedTaintAnalysis.cpp:630-650`); `load` is `getApproxLoadFrom`. -/
def callEdge (load : Nat → Option Nat) (n : Nat) (d d' : Loc) : EFn :=
  if p.strong = false then .id
  else if p.isZero d && p.isZero d' then .id
  else match (p.args n).find? fun a => equiv (q.fact a) d with
    | some a => .kill (load a)
    | none => .id

/-- `getReturnEdgeFunction` (`IDEExtendedTaintAnalysis.cpp:652-673`).  Simplification: a `return` without value, for which
`getApproxLoadFrom` is called with the null pointer, has no load here; then the call has no value and the case does not occur. -/
def retEdge (load : Nat → Option Nat) (c e : Nat) (d d' : Loc) : EFn :=
  if p.strong = false then .id
  else if p.isZero d && p.isZero d' then .id
  else match p.inst e with
    | .ret rv => if equiv d' (q.fact c) then .transfer (rv.bind load) (some c) else .transfer none (some c)
    | _ => .transfer none (some c)

/-- `getCallToRetEdgeFunction` (`IDEExtendedTaintAnalysis.cpp:675-694`). -/
def ctrEdge (n : Nat) (d d' : Loc) : EFn :=
  if p.strong && !(p.icf.callees n).all p.isIntrinsic && decide (d = d') then
    if (p.args n).any fun a => p.isPtr a && equiv d (q.fact a) then .gen (some n) else .id
  else .id

/-- The loop over the callees in `getSummaryEdgeFunction` (`IDEExtendedTaintAnalysis.cpp:713-729`): the values that every callee
sanitizes.  The early exit for an empty set changes nothing. -/
def saniAll (n : Nat) : List Nat :=
  match p.icf.callees n with
  | [] => []
  | f :: fs => (p.saniAt n (some f)).filter fun k => fs.all fun g => (p.saniAt n (some g)).contains k

/-- `getSummaryEdgeFunction` (`IDEExtendedTaintAnalysis.cpp:696-744`). -/
def sumEdge (n : Nat) (d d' : Loc) : EFn :=
  if p.isZero d && !p.isZero d' then .gen none
  else if p.strong = false then .id
  else if sanitizes q (p.saniAll n) d then .gen (some n)
  else match p.inst n with
    | .memset dst _ | .memcpy dst _ => if p.mustAl d (q.fact dst) then .gen (some n) else .id
    | _ => .id

end Prog

/-! ### Leaks -/

/-- The members `Leaks` (a map from instructions to sets of values) and `PostProcessed` (`IDEExtendedTaintAnalysis.h:260-262, 278-279`). -/
structure Leaks where
  map : List (Nat × List Nat)
  done : Bool
deriving DecidableEq, Repr

/-- The constructor (`IDEExtendedTaintAnalysis.h:191`). -/
def Leaks.init (p : Prog) : Leaks := ⟨[], !p.strong⟩

/-- `Leaks[Inst].insert(Leak)` (`IDEExtendedTaintAnalysis.cpp:230, 286`). -/
def Leaks.insert (L : Leaks) (x : Nat × Nat) : Leaks :=
  { L with map :=
      if L.map.any (fun e => e.1 == x.1) then
        L.map.map fun e => if e.1 = x.1 then (e.1, if x.2 ∈ e.2 then e.2 else e.2 ++ [x.2]) else e
      else L.map ++ [(x.1, [x.2])] }

/-- Whether a potential leak is removed (`IDEExtendedTaintAnalysis.cpp:844-881`); `res` are the results of the solver, `load` is
`getApproxLoadFrom`. -/
def dropped (p : Prog) (q : Asks) (load : Nat → Option Nat) (res : Nat → Loc → Option (XTaint.Dom Nat)) (n v : Nat) : Bool :=
  XTaint.suppressed p.bbo (res n (q.fact v)) (load v)

/-- `doPostProcessing` (`IDEExtendedTaintAnalysis.cpp:836-894`). -/
def Leaks.post (p : Prog) (q : Asks) (load : Nat → Option Nat) (res : Nat → Loc → Option (XTaint.Dom Nat)) (L : Leaks) : Leaks :=
  ⟨(L.map.map fun e => (e.1, e.2.filter fun v => !dropped p q load res e.1 v)).filter fun e => !e.2.isEmpty, true⟩

/-- `getAllLeaks` with results (`IDEExtendedTaintAnalysis.cpp:896-910`), the state afterwards. -/
def Leaks.all (p : Prog) (q : Asks) (load : Nat → Option Nat) (res : Nat → Loc → Option (XTaint.Dom Nat)) (L : Leaks) : Leaks :=
  if L.done then L else L.post p q load res

/-- The pairs of the map, in its order (`IDEExtendedTaintAnalysis.cpp:755-756`). -/
def Leaks.pairs (L : Leaks) : List (Nat × Nat) := L.map.flatMap fun e => e.2.map fun v => (e.1, v)

/-- What `emitTextReport` passes to the printer (`IDEExtendedTaintAnalysis.cpp:748-763`), after what was printed during the analysis. -/
def report (p : Prog) (q : Asks) (load : Nat → Option Nat) (res : Nat → Loc → Option (XTaint.Dom Nat)) (printed : List (Nat × Nat))
    (L : Leaks) : List (Nat × Nat) := printed ++ (L.all p q load res).pairs

end Phasar.XFlow
