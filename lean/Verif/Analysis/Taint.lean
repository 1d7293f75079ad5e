import Verif.Store.LLVMFlow
import Verif.IDE.Ifds
/-!
# The IFDS taint analysis as a tabulation problem

`lib/PhasarLLVM/DataFlow/IfdsIde/Problems/IFDSTaintAnalysis.cpp` with the helpers of
`include/phasar/PhasarLLVM/TaintConfig/TaintConfigUtilities.h`, on programs given as tables of instructions.  What programs do
with tainted data is in `Verif/Analysis/TaintSem.lean`.
-/
namespace Phasar.Taint
open Phasar Phasar.IDE

/-- Facts `const llvm::Value *`: the zero value (`LLVMZeroValue.h:53`), a literal (`llvm::ConstantData`), and the other values
(instructions, parameters, globals) by number; the result of the instruction `n` is `node n`. -/
inductive Val
  | zero
  | lit (c : Nat)
  | node (k : Nat)
deriving DecidableEq, Repr

/-- The instructions the analysis tells apart (`IFDSTaintAnalysis.cpp:269-311`); `op` stands for every instruction that gets the
identity flow (`:314`): phi, select, arithmetic, comparisons, branches. -/
inductive Inst
  | alloca
  | store (v ptr : Val)
  | load (ptr : Val)
  | gep (ptr : Val)
  | extract (agg : Val)
  | insert (agg v : Val)
  | cast (v : Val)
  | op (ops : List Val)
  | call (args : List Val)
  | ret (v : Option Val)
deriving DecidableEq, Repr

/-- Where a library summary maps a parameter: another parameter or the return value (`DataFlowFact`,
`include/phasar/PhasarLLVM/DataFlow/IfdsIde/FunctionDataFlowFacts.h:13-24`). -/
inductive Target
  | param (i : Nat)
  | ret
deriving DecidableEq, Repr

/-- A program, its alias information and the taint configuration, as far as the analysis asks for them.
`isConst` is `llvm::isa<llvm::Constant>` on nodes (`LLVMFlowFunctions.h:85,143,283`), so it is true of globals; `constData` is
`isCompiletimeConstantData` (`IFDSTaintAnalysis.cpp:144-151`); `uses2` is `hasNUsesOrMore(2)` (`:188,205-206,273`); `aliases` is
`PT.getAliasSet` (`:157`); `isInst`, `argOf`, `block`, `before` are the queries of `canSkipAtContext` (`:119-142`); `strip` is
`stripPointerCasts` (`:169`); `isSource`, `isSink`, `isSani` are `Config->isSource/isSink/isSanitizer` on the node of a parameter
or a call; `srcCB`, `sinkCB` the registered call-backs; `fdff` is `Llvmfdff` (`:407-410`); `swift` holds of the function named
`$sSS1poiyS2S_SStFZ` (`:373`); `sretCS` is `CS->hasStructRetAttr()` (`:398`).  `mainStarts` are the start points of `main` if
`"main"` is among the entry points (`:489-500`).
Simplification: no variable-argument functions. -/
structure Prog where
  inst : Nat → Inst
  icf : ICFG Nat Nat
  isConst : Nat → Bool
  constData : Nat → Bool
  isPtr : Nat → Bool
  params : Nat → List Nat
  isDecl : Nat → Bool
  sret : Nat → Bool
  sretCS : Nat → Bool
  uses2 : Nat → Bool
  aliases : Val → List Val
  isInst : Nat → Bool
  argOf : Nat → Option Nat
  block : Nat → Nat
  before : Nat → Nat → Bool
  strip : Val → Val
  isSource : Nat → Bool
  isSink : Nat → Bool
  isSani : Nat → Bool
  srcCB : Option (Nat → List Val)
  sinkCB : Option (Nat → List Val)
  fdff : Nat → Option (List (Nat × List Target))
  swift : Nat → Bool
  entries : List Nat
  mainStarts : List Nat
  taintMain : Bool

variable (p : Prog)

/-- `hasNUsesOrMore(2)` of an operand (`IFDSTaintAnalysis.cpp:188,205-206,273`).  Literals are uniqued and shared by the whole
context; nothing below depends on the answer for them. -/
def Prog.twoUses : Val → Bool
  | .node k => p.uses2 k
  | _ => true

/-- `getType()->isPointerTy()` (`IFDSTaintAnalysis.cpp:341,363`). -/
def Prog.ptrTy : Val → Bool
  | .node k => p.isPtr k
  | _ => false

/-- What `LLVMFlowFunctions.h` asks about values. -/
def Prog.ir : FlowFn.IR Val where
  zero := .zero
  isConst := fun v => match v with
    | .zero => true
    | .lit _ => true
    | .node k => p.isConst k

/-- The callee as `LLVMFlowFunctions.h` sees it. -/
def Prog.callee (f : Nat) : FlowFn.Callee Val where
  decl := p.isDecl f
  params := (p.params f).map .node
  sret := p.sret f
  vaLists := []

/-- Arguments of the call (`CallBase::args`). -/
def Prog.args (n : Nat) : List Val := match p.inst n with
  | .call as => as
  | _ => []

/-- Returned value (`ReturnInst::getReturnValue`, `LLVMFlowFunctions.h:335-341`). -/
def Prog.retVal (n : Nat) : Option Val := match p.inst n with
  | .ret v => v
  | _ => none

/-- `canSkipAtContext` (`IFDSTaintAnalysis.cpp:119-142`). -/
def Prog.canSkip (v : Val) (ctx : Nat) : Bool := match v with
  | .node k =>
    if p.isInst k then
      if p.icf.funOf k ≠ p.icf.funOf ctx then true
      else decide (p.block k = p.block ctx) && p.before ctx k
    else match p.argOf k with
      | some f => decide (f ≠ p.icf.funOf ctx)
      | none => false
  | _ => false

/-- `isCompiletimeConstantData` (`IFDSTaintAnalysis.cpp:144-151`); the zero value is a global variable that is constant
(`LLVMZeroValue.cpp:9-17`). -/
def Prog.isConstData : Val → Bool
  | .node k => p.constData k
  | _ => true

/-- What one alias adds in the loop of `populateWithMayAliases` (`IFDSTaintAnalysis.cpp:158-174`). -/
def Prog.aliasFacts (ctx : Nat) (a : Val) : List Val :=
  if p.canSkip a ctx then []
  else if p.isConstData a then []
  else match a with
    | .node k => match p.inst k with
      | .load ptr => if p.isInst k then [p.strip ptr, a] else [a]
      | _ => [a]
    | _ => [a]

/-- `populateWithMayAliases` (`IFDSTaintAnalysis.cpp:153-178`). -/
def Prog.populate (facts : List Val) (ctx : Nat) : List Val :=
  FSet.insertAll facts (facts.flatMap fun v => (p.aliases v).flatMap (p.aliasFacts ctx))

/-- `transferAndKillFlow` (`IFDSTaintAnalysis.cpp:186-201`). -/
def Prog.transferAndKill (to from_ : Val) : FlowFn.FF Val :=
  if p.twoUses from_ then FlowFn.transferFlow to from_
  else fun s => if s = from_ then FSet.ofList [to] else if s = to then [] else FSet.ofList [s]

/-- `transferAndKillTwoFlows` (`IFDSTaintAnalysis.cpp:203-263`), the four cases in the order of the code. -/
def Prog.transferAndKillTwo (to f1 f2 : Val) : FlowFn.FF Val :=
  if p.twoUses f1 = false then
    if p.twoUses f2 = false then
      fun s => if s = f1 ∨ s = f2 then FSet.ofList [to] else if s = to then [] else FSet.ofList [s]
    else
      fun s => if s = f1 then FSet.ofList [to] else if s = f2 then FSet.ofList [s, to] else if s = to then []
        else FSet.ofList [s]
  else if p.twoUses f2 = false then
    fun s => if s = f1 then FSet.ofList [s, to] else if s = f2 then FSet.ofList [to] else if s = to then []
      else FSet.ofList [s]
  else
    fun s => if s = f1 ∨ s = f2 then FSet.ofList [s, to] else if s = to then [] else FSet.ofList [s]

/-- The facts a store generates (`IFDSTaintAnalysis.cpp:270-275`). -/
def Prog.storeGen (n : Nat) (v ptr : Val) : List Val :=
  let gen := p.populate (FSet.insert [] ptr) n
  if p.twoUses v then FSet.insert gen v else gen

/-- `getNormalFlowFunction` (`IFDSTaintAnalysis.cpp:265-315`). -/
def Prog.normalFlow (n _succ : Nat) : FlowFn.FF Val := match p.inst n with
  | .store v ptr => fun s => if ptr = s then [] else if v = s then p.storeGen n v ptr else FSet.ofList [s]
  | .load ptr => p.transferAndKill (.node n) ptr
  | .gep ptr => p.transferAndKill (.node n) ptr
  | .extract agg => p.transferAndKill (.node n) agg
  | .insert agg v => p.transferAndKillTwo (.node n) agg v
  | .cast v => FlowFn.transferFlow (.node n) v
  | _ => FlowFn.identityFlow

/-- Does a call-back report facts that concern the call (`IFDSTaintAnalysis.cpp:63-81, 91-109`)? -/
def Prog.cbHits (cb : Option (Nat → List Val)) (n : Nat) : Bool := match cb with
  | none => false
  | some g =>
    if g n = [] then false
    else if .node n ∈ g n then true
    else (p.args n).any fun a => decide (a ∈ g n)

/-- `isSourceCall` (`IFDSTaintAnalysis.cpp:56-82`). -/
def Prog.isSourceCall (n f : Nat) : Bool := (p.params f).any p.isSource || p.cbHits p.srcCB n

/-- `isSinkCall` (`IFDSTaintAnalysis.cpp:84-110`). -/
def Prog.isSinkCall (n f : Nat) : Bool := (p.params f).any p.isSink || p.cbHits p.sinkCB n

/-- `getCallFlowFunction` (`IFDSTaintAnalysis.cpp:317-330`); the default property is equality and globals and zero are passed on
(`LLVMFlowFunctions.h:132-140`). -/
def Prog.callFlow (n f : Nat) : FlowFn.FF Val :=
  if p.isSourceCall n f || p.isSinkCall n f then FlowFn.killAllFlows
  else FlowFn.mapFactsToCallee p.ir (p.args n) (p.callee f) (fun a s => decide (a = s)) true true

/-- `getRetFlowFunction` (`IFDSTaintAnalysis.cpp:332-350`) for the return from `f` at `e` to the call `c`. -/
def Prog.retFlow (c f e _r : Nat) : FlowFn.FF Val := fun s =>
  p.populate (FlowFn.mapFactsToCaller p.ir (.node c) (p.args c) (p.callee f) (p.retVal e)
    (fun q s => decide (q = s) && p.ptrTy q) (fun v s => decide (v = s)) true true s) c

/-- `getCallToRetFlowFunction` (`IFDSTaintAnalysis.cpp:352-365`). -/
def Prog.ctrFlow (n _r : Nat) : FlowFn.FF Val :=
  FlowFn.mapFactsAlongsideCallSite p.ir (p.args n)
    (fun a => (p.icf.callees n).any p.isDecl || !p.ptrTy a) true

/-- The arguments whose parameter of `f` satisfies `q`: the loops of `TaintConfigUtilities.h:40-44, 61-65, 82-86`.
`getArgOperand(I)` beyond the arguments of the call is undefined; the model stops at the shorter list. -/
def Prog.argsWith (q : Nat → Bool) (n f : Nat) : List Val :=
  (((p.params f).zip (p.args n)).filter fun x => q x.1).map Prod.snd

/-- `collectGeneratedFacts` (`TaintConfigUtilities.h:27-45`). -/
def Prog.collectGen (n f : Nat) : List Val :=
  let r := match p.srcCB with
    | some g => FSet.insertAll [] (g n)
    | none => []
  let r := if p.isSource n then FSet.insert r (.node n) else r
  FSet.insertAll r (p.argsWith p.isSource n f)

/-- `collectLeakedFacts` (`TaintConfigUtilities.h:50-74`). -/
def Prog.collectLeak (n f : Nat) : List Val :=
  let r := match p.sinkCB with
    | some g => FSet.insertAll [] (g n)
    | none => []
  FSet.insertAll r (p.argsWith p.isSink n f)

/-- `collectSanitizedFacts` (`TaintConfigUtilities.h:79-87`). -/
def Prog.collectSani (n f : Nat) : List Val := FSet.insertAll [] (p.argsWith p.isSani n f)

/-- `Gen` after `populateWithMayAliases` (`IFDSTaintAnalysis.cpp:388,392`). -/
def Prog.gen (n f : Nat) : List Val := p.populate (p.collectGen n f) n

/-- `Kill` (`IFDSTaintAnalysis.cpp:390,396-405`; `populateWithMustAliases` does nothing, `:180-184`).  A call with the struct-return attribute has a first argument. -/
def Prog.kill (n f : Nat) : List Val :=
  if p.sretCS n then match (p.args n)[0]? with
    | some a => if a ∈ p.gen n f then p.collectSani n f else FSet.insert (p.collectSani n f) a
    | none => p.collectSani n f
  else p.collectSani n f

/-- The facts one entry of a library summary adds (`IFDSTaintAnalysis.cpp:421-429`); an index beyond the arguments is
undefined, the model adds nothing. -/
def Prog.targetFacts (n : Nat) : Target → List Val
  | .param j => ((p.args n)[j]?).toList
  | .ret => [.node n]

/-- `find` in the parameter mapping (`IFDSTaintAnalysis.cpp:418-420`). -/
def lookupParam (m : List (Nat × List Target)) (i : Nat) : List Target :=
  match m.find? (fun e => decide (e.1 = i)) with
  | some e => e.2
  | none => []

/-- The flow function of a library summary (`IFDSTaintAnalysis.cpp:411-433`). -/
def Prog.fdffFlow (n f : Nat) (m : List (Nat × List Target)) : FlowFn.FF Val := fun s =>
  FSet.insert (((p.args n).zip (List.range (p.params f).length)).foldl
    (fun r x => if s = x.1 then FSet.insertAll r ((lookupParam m x.2).flatMap (p.targetFacts n)) else r) []) s

/-- `getSummaryFlowFunction` (`IFDSTaintAnalysis.cpp:367-480`); `none` is `nullptr`. -/
def Prog.summaryFlow (n f : Nat) : Option (FlowFn.FF Val) :=
  if p.swift f then
    some (FlowFn.generateFlowIf (.node n) fun s =>
      decide ((p.args n)[1]? = some s) || decide ((p.args n)[3]? = some s))
  else if p.gen n f = [] ∧ p.collectLeak n f = [] ∧ p.kill n f = [] then
    (p.fdff f).map (p.fdffFlow n f)
  else if p.gen n f = [] then
    some fun s => if s ∈ p.kill n f then [] else FSet.ofList [s]
  else
    some fun s => if s = .zero then FSet.insert (p.gen n f) .zero else FSet.ofList [s]

/-- Does the summary of the call `n` of `f` record a leak when it is applied to `s` (`IFDSTaintAnalysis.cpp:443-448, 471-476`)? -/
def Prog.records (n f : Nat) (s : Val) : Bool :=
  if p.swift f then false
  else if p.gen n f = [] then decide (s ∈ p.collectLeak n f)
  else decide (s ≠ .zero) && decide (s ∈ p.collectLeak n f)

/-- `initialSeeds` (`IFDSTaintAnalysis.cpp:482-504`). -/
def Prog.seeds : List (Nat × List (Val × BinaryDomain)) :=
  p.entries.map fun sp => (sp, (.zero, .BOTTOM) ::
    (if p.taintMain && decide (sp ∈ p.mainStarts) then
      (p.params (p.icf.funOf sp)).map fun k => (.node k, .BOTTOM)
    else []))

/-- The analysis as the solver sees it: an IFDS problem (`IFDSTabulationProblem.h:48-78`). -/
def Prog.problem : Problem Nat Val Nat BinaryDomain (EF Empty BinaryDomain) where
  icf := p.icf
  alg := ifdsAlg
  normalFlow := p.normalFlow
  callFlow := p.callFlow
  retFlow := p.retFlow
  ctrFlow := p.ctrFlow
  summaryFlow := p.summaryFlow
  normalEdge := fun _ _ _ _ => .id
  callEdge := fun _ _ _ _ => .id
  retEdge := fun _ _ _ _ _ _ => .id
  ctrEdge := fun _ _ _ _ => .id
  sumEdge := fun _ _ _ _ => .id
  zero := .zero
  seeds := p.seeds
  followReturnsPastSeeds := false

/-- The member `Leaks` after the solver has run (`IFDSTaintAnalysis.cpp:444,472`): the summary flow function of a call is
applied to every fact that holds at the call, once for each callee and return site (`IDESolver.h:382-397`). -/
def Prog.Reported (w : VS Nat Val BinaryDomain) (n : Nat) (v : Val) : Prop :=
  p.icf.isCall n = true ∧ p.icf.retSites n ≠ [] ∧ ifdsResultsAt w n v ∧ ∃ f ∈ p.icf.callees n, p.records n f v = true

end Phasar.Taint
