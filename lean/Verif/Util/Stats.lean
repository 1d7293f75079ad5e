/-
The general statistics of a module, lib/PhasarLLVM/Passes/GeneralStatisticsAnalysis.cpp and
include/phasar/PhasarLLVM/Passes/GeneralStatisticsAnalysis.h.

A module is given as the loops of the pass see it.  Counters are natural numbers: the overflow of `size_t` is left out.  Log messages and
the registration of the results as counters of the performance measurement (C84), GeneralStatisticsAnalysis.cpp:214-250, are left out.
-/
namespace Phasar.Stats

/-- Types, as far as GeneralStatisticsAnalysis.cpp:46-68 tells them apart: `isPointerTy` / `isOpaquePointerTy` / `isStructTy`.  Equal
types are the same object. -/
inductive Ty where
  | ptr (elem : Ty)
  | opaquePtr
  | struct (id : Nat)
  | other (id : Nat)
deriving DecidableEq, Repr

/-- A user of a cast, GeneralStatisticsAnalysis.cpp:54-63: a call with `getCalledFunction()`, the types of whose formals are given
(`none`: there is no called function), or anything else. -/
inductive CastUser where
  | call (formals : Option (List Ty))
  | other
deriving DecidableEq, Repr

/-- A user of a call, GeneralStatisticsAnalysis.cpp:47-51: a `BitCastInst` with its destination type and its users, or anything else. -/
inductive CallUser where
  | bitcast (dest : Ty) (users : List CastUser)
  | other
deriving DecidableEq, Repr

/-- The called operand of a call after `stripPointerCastsAndAliases`, GeneralStatisticsAnalysis.cpp:179-196. -/
inductive Called where
  | inlineAsm
  | fn (name : String)
  | other
deriving DecidableEq, Repr

/-- What an instruction is, GeneralStatisticsAnalysis.cpp:132-197.  Of a call: the called operand, whether it is a `MemIntrinsic`, a
`DbgInfoIntrinsic`, and its users. -/
inductive Kind where
  | alloca (ty : Ty)
  | phi
  | branch
  | switch
  | gep
  | ret
  | resume
  | store
  | load
  | landingPad
  | call (called : Called) (mem dbg : Bool) (users : List CallUser)
  | other
deriving DecidableEq, Repr

/-- An instruction: its address, the number of its operands, the basic blocks of its uses (of a use in a phi node: the incoming block,
`Instruction::isUsedOutsideOfBlock`), whether its type is void.  GeneralStatisticsAnalysis.cpp:104-130. -/
structure Inst where
  id : Nat
  numOps : Nat
  uses : List Nat
  isVoid : Bool
  kind : Kind
deriving DecidableEq, Repr

/-- A basic block with the blocks at its incoming and outgoing edges, GeneralStatisticsAnalysis.cpp:88-104. -/
structure Block where
  id : Nat
  preds : List Nat
  succs : List Nat
  insts : List Inst
deriving DecidableEq, Repr

/-- A use of a function, GeneralStatisticsAnalysis.cpp:36-38: the called operand of the user, if that is a call, and whether the use is
that called operand (otherwise it is an argument of the call). -/
inductive FunUse where
  | call (calledOperand : Nat) (asCallee : Bool)
  | other
deriving DecidableEq, Repr

/-- A function, GeneralStatisticsAnalysis.cpp:74-88. -/
structure Func where
  id : Nat
  external : Bool
  isDecl : Bool
  uses : List FunUse
  blocks : List Block
deriving DecidableEq, Repr

/-- A global variable, GeneralStatisticsAnalysis.cpp:202-213. -/
structure Global where
  isConst : Bool
  isDecl : Bool
  external : Bool
deriving DecidableEq, Repr

/-- A module, GeneralStatisticsAnalysis.cpp:71-74, 202. -/
structure Module where
  funcs : List Func
  globals : List Global
deriving DecidableEq, Repr

/-- `struct GeneralStatistics`, GeneralStatisticsAnalysis.h:36-75, without the name of the module.  The sets are lists to which an element
is added if it is not there.  `undefinedAt`: the pass has called `getArg(0)` of a function without formals, which is undefined. -/
structure Stats where
  functions : Nat := 0
  externalFunctions : Nat := 0
  functionDefinitions : Nat := 0
  addressTakenFunctions : Nat := 0
  globals : Nat := 0
  globalConsts : Nat := 0
  externalGlobals : Nat := 0
  globalsDefinitions : Nat := 0
  basicBlocks : Nat := 0
  allocationSites : Nat := 0
  callSites : Nat := 0
  debugIntrinsics : Nat := 0
  instructions : Nat := 0
  storeInstructions : Nat := 0
  loadInstructions : Nat := 0
  memIntrinsics : Nat := 0
  branches : Nat := 0
  switches : Nat := 0
  getElementPtrs : Nat := 0
  landingPads : Nat := 0
  phiNodes : Nat := 0
  numInlineAsm : Nat := 0
  indCalls : Nat := 0
  totalNumOperands : Nat := 0
  totalNumUses : Nat := 0
  totalNumPredecessorBBs : Nat := 0
  totalNumSuccessorBBs : Nat := 0
  maxNumOperands : Nat := 0
  maxNumUses : Nat := 0
  maxNumPredecessorBBs : Nat := 0
  maxNumSuccessorBBs : Nat := 0
  numInstWithMultipleUses : Nat := 0
  numInstsUsedOutsideBB : Nat := 0
  nonVoidInsts : Nat := 0
  allocatedTypes : List Ty := []
  allocaInstructions : List Nat := []
  retResInstructions : List Nat := []
  undefinedAt : Bool := false
deriving DecidableEq, Repr

/-- One conditional `++`, as in GeneralStatisticsAnalysis.cpp:77-79. -/
def inc (c : Bool) : Nat := if c then 1 else 0

/-- `if (X > Max) { ++Max; }`, GeneralStatisticsAnalysis.cpp:96-101, 113-118. -/
def bump (max x : Nat) : Nat := if x > max then max + 1 else max

/-- `std::set::insert`, GeneralStatisticsAnalysis.cpp:61, 135, 137, 154, 188. -/
def insert {α : Type} [DecidableEq α] (x : α) (s : List α) : List α := if x ∈ s then s else x :: s

/-- `isAddressTaken`, GeneralStatisticsAnalysis.cpp:35-43; `Use.get()` of a use of a function is the function. -/
def isAddressTaken (f : Func) : Bool :=
  f.uses.any fun u => match u with
    | .call calledOperand _ => f.id != calledOperand
    | .other => true

/-- The inner loop of `collectAllocatedTypes`, GeneralStatisticsAnalysis.cpp:54-63, for a cast to a pointer to `elem`: the types inserted
and whether `getArg(0)` is called of a function without formals.  Simplified: the loop goes on after that. -/
def ctorCalls (dest elem : Ty) : List CastUser → List Ty × Bool → List Ty × Bool
  | [], r => r
  | .call (some (p :: _)) :: us, (ts, u) => ctorCalls dest elem us (if p = dest then insert elem ts else ts, u)
  | .call (some []) :: us, (ts, _) => ctorCalls dest elem us (ts, true)
  | .call none :: us, r => ctorCalls dest elem us r
  | .other :: us, r => ctorCalls dest elem us r

/-- `collectAllocatedTypes`, GeneralStatisticsAnalysis.cpp:46-68. -/
def collectAllocatedTypes : List CallUser → List Ty × Bool → List Ty × Bool
  | [], r => r
  | .bitcast (.ptr (.struct t)) us :: cs, r =>
    collectAllocatedTypes cs (ctorCalls (.ptr (.struct t)) (.struct t) us r)
  | _ :: cs, r => collectAllocatedTypes cs r

/-- `isHeapAllocatingFunction`, LLVMShorthands.cpp:69-73. -/
def isHeapAllocating (n : String) : Bool :=
  n = "_Znwm" || n = "_Znam" || n = "_ZnwPv" || n = "malloc" || n = "calloc" || n = "realloc"

/-- The tests by kind, GeneralStatisticsAnalysis.cpp:132-197. -/
def kindStep (s : Stats) (id : Nat) : Kind → Stats
  | .alloca ty =>
    { s with allocatedTypes := insert ty s.allocatedTypes, allocaInstructions := insert id s.allocaInstructions
             allocationSites := s.allocationSites + 1 }
  | .phi => { s with phiNodes := s.phiNodes + 1 }
  | .branch => { s with branches := s.branches + 1 }
  | .switch => { s with switches := s.switches + 1 }
  | .gep => { s with getElementPtrs := s.getElementPtrs + 1 }
  | .ret => { s with retResInstructions := insert id s.retResInstructions }
  | .resume => { s with retResInstructions := insert id s.retResInstructions }
  | .store => { s with storeInstructions := s.storeInstructions + 1 }
  | .load => { s with loadInstructions := s.loadInstructions + 1 }
  | .landingPad => { s with landingPads := s.landingPads + 1 }
  | .call called mem dbg users =>
    let s := { s with memIntrinsics := s.memIntrinsics + inc mem, debugIntrinsics := s.debugIntrinsics + inc dbg
                      callSites := s.callSites + 1 }
    match called with
    | .inlineAsm => { s with numInlineAsm := s.numInlineAsm + 1 }
    | .fn name =>
      if isHeapAllocating name then
        let r := collectAllocatedTypes users (s.allocatedTypes, s.undefinedAt)
        { s with allocaInstructions := insert id s.allocaInstructions, allocationSites := s.allocationSites + 1
                 allocatedTypes := r.1, undefinedAt := r.2 }
      else s
    | .other => { s with indCalls := s.indCalls + 1 }
  | .other => s

/-- One instruction of the block `b`, GeneralStatisticsAnalysis.cpp:104-197. -/
def instStep (b : Nat) (s : Stats) (i : Inst) : Stats :=
  kindStep
    { s with
      instructions := s.instructions + 1
      totalNumOperands := s.totalNumOperands + i.numOps
      totalNumUses := s.totalNumUses + i.uses.length
      maxNumOperands := bump s.maxNumOperands i.numOps
      maxNumUses := bump s.maxNumUses i.uses.length
      numInstWithMultipleUses := s.numInstWithMultipleUses + inc (decide (i.uses.length > 1))
      nonVoidInsts := s.nonVoidInsts + inc (!i.isVoid)
      numInstsUsedOutsideBB := s.numInstsUsedOutsideBB + inc (i.uses.any (· != b)) }
    i.id i.kind

/-- The head of the loop over the basic blocks, GeneralStatisticsAnalysis.cpp:88-102. -/
def blockHead (s : Stats) (b : Block) : Stats :=
  { s with
    basicBlocks := s.basicBlocks + 1
    totalNumPredecessorBBs := s.totalNumPredecessorBBs + b.preds.length
    totalNumSuccessorBBs := s.totalNumSuccessorBBs + b.succs.length
    maxNumPredecessorBBs := bump s.maxNumPredecessorBBs b.preds.length
    maxNumSuccessorBBs := bump s.maxNumSuccessorBBs b.succs.length }

/-- One basic block, GeneralStatisticsAnalysis.cpp:88-198. -/
def blockStep (s : Stats) (b : Block) : Stats := b.insts.foldl (instStep b.id) (blockHead s b)

/-- The head of the loop over the functions, GeneralStatisticsAnalysis.cpp:74-86. -/
def funcHead (s : Stats) (f : Func) : Stats :=
  { s with
    functions := s.functions + 1
    externalFunctions := s.externalFunctions + inc f.external
    functionDefinitions := s.functionDefinitions + inc (!f.isDecl)
    addressTakenFunctions := s.addressTakenFunctions + inc (isAddressTaken f) }

/-- One function, GeneralStatisticsAnalysis.cpp:74-199. -/
def funcStep (s : Stats) (f : Func) : Stats := f.blocks.foldl blockStep (funcHead s f)

/-- One global variable, GeneralStatisticsAnalysis.cpp:202-213. -/
def globalStep (s : Stats) (g : Global) : Stats :=
  { s with
    globals := s.globals + 1
    globalConsts := s.globalConsts + inc g.isConst
    globalsDefinitions := s.globalsDefinitions + inc (!g.isDecl)
    externalGlobals := s.externalGlobals + inc g.external }

/-- The loops of `runOnModule`, GeneralStatisticsAnalysis.cpp:74-213.  `Stats` is a member of the pass and is not reset: the pass goes on
from what an earlier run has left. -/
def loops (s : Stats) (m : Module) : Stats := m.globals.foldl globalStep (m.funcs.foldl funcStep s)

/-- `runOnModule`, GeneralStatisticsAnalysis.cpp:71-253.  `none`: undefined behaviour. -/
def runOnModule (s : Stats) (m : Module) : Option Stats :=
  let r := loops s m
  if r.undefinedAt then none else some r

/-- A number of the report: a count or the quotient of two counts. -/
inductive Num where
  | nat (n : Nat)
  | quot (a b : Nat)
deriving DecidableEq, Repr

/-- `GeneralStatistics::printAsJson`, GeneralStatisticsAnalysis.cpp:292-334, without the name of the module.  The quotients are `double`s
there. -/
def json (s : Stats) : List (String × Num) :=
  [("Instructions", .nat s.instructions),
   ("Functions", .nat s.functions),
   ("ExternalFunctions", .nat s.externalFunctions),
   ("FunctionDefinitions", .nat s.functionDefinitions),
   ("AddressTakenFunctions", .nat s.addressTakenFunctions),
   ("Globals", .nat s.globals),
   ("GlobalConsts", .nat s.globalConsts),
   ("GlobalVariables", .nat (s.globals - s.globalConsts)),
   ("ExternalGlobals", .nat s.externalGlobals),
   ("GlobalsDefinitions", .nat s.globalsDefinitions),
   ("AllocaInstructions", .nat s.allocaInstructions.length),
   ("CallSites", .nat s.callSites),
   ("IndirectCallSites", .nat s.indCalls),
   ("NumInlineAssembly", .nat s.numInlineAsm),
   ("MemoryIntrinsics", .nat s.memIntrinsics),
   ("DebugIntrinsics", .nat s.debugIntrinsics),
   ("Switches", .nat s.switches),
   ("GetElementPtrs", .nat s.getElementPtrs),
   ("PhiNodes", .nat s.phiNodes),
   ("LandingPads", .nat s.landingPads),
   ("BasicBlocks", .nat s.basicBlocks),
   ("TotalNumPredecessorBBs", .nat s.totalNumPredecessorBBs),
   ("Branches", .nat s.branches),
   ("AvgPredPerBasicBlock", .quot s.totalNumPredecessorBBs s.basicBlocks),
   ("MaxPredPerBasicBlock", .nat s.maxNumPredecessorBBs),
   ("AvgSuccPerBasicBlock", .quot s.totalNumSuccessorBBs s.basicBlocks),
   ("MaxSuccPerBasicBlock", .nat s.maxNumSuccessorBBs),
   ("AvgOperandsPerInst", .quot s.totalNumOperands s.instructions),
   ("MaxNumOperandsPerInst", .nat s.maxNumOperands),
   ("AvgUsesPerInst", .quot s.totalNumUses s.instructions),
   ("MaxUsesPerInst", .nat s.maxNumUses),
   ("NumInstWithMultipleUses", .nat s.numInstWithMultipleUses),
   ("NonVoidInsts", .nat s.nonVoidInsts),
   ("NumInstsUsedOutsideBB", .nat s.numInstsUsedOutsideBB)]

/-- The rows of `operator<<`, GeneralStatisticsAnalysis.cpp:375-425. -/
def text (s : Stats) : List (String × Num) :=
  [("LLVM IR instructions", .nat s.instructions),
   ("Functions", .nat s.functions),
   ("External Functions", .nat s.externalFunctions),
   ("Function Definitions", .nat s.functionDefinitions),
   ("Address-Taken Functions", .nat s.addressTakenFunctions),
   ("Globals", .nat s.globals),
   ("Global Constants", .nat s.globalConsts),
   ("Global Variables", .nat (s.globals - s.globalConsts)),
   ("External Globals", .nat s.externalGlobals),
   ("Global Definitions", .nat s.globalsDefinitions),
   ("Alloca Instructions", .nat s.allocaInstructions.length),
   ("Call Sites", .nat s.callSites),
   ("Indirect Call Sites", .nat s.indCalls),
   ("Inline Assemblies", .nat s.numInlineAsm),
   ("Memory Intrinsics", .nat s.memIntrinsics),
   ("Debug Intrinsics", .nat s.debugIntrinsics),
   ("Switches", .nat s.switches),
   ("GetElementPtrs", .nat s.getElementPtrs),
   ("Phi Nodes", .nat s.phiNodes),
   ("LandingPads", .nat s.landingPads),
   ("Basic Blocks", .nat s.basicBlocks),
   ("Branches", .nat s.branches),
   ("Avg #pred per BasicBlock", .quot s.totalNumPredecessorBBs s.basicBlocks),
   ("Max #pred per BasicBlock", .nat s.maxNumPredecessorBBs),
   ("Avg #succ per BasicBlock", .quot s.totalNumSuccessorBBs s.basicBlocks),
   ("Max #succ per BasicBlock", .nat s.maxNumSuccessorBBs),
   ("Avg #operands per Inst", .quot s.totalNumOperands s.instructions),
   ("Max #operands per Inst", .nat s.maxNumOperands),
   ("Avg #uses per Inst", .quot s.totalNumUses s.instructions),
   ("Max #uses per Inst", .nat s.maxNumUses),
   ("Insts with >1 uses", .nat s.numInstWithMultipleUses),
   ("Non-void Insts", .nat s.nonVoidInsts),
   ("Insts used outside its BB", .nat s.numInstsUsedOutsideBB)]

/-- The number of blanks behind the name and the colon, GeneralStatisticsAnalysis.cpp:357-364: `-(Len < NumOffs) & (NumOffs - Len)` over
`size_t`, where the `int` on the left is 0 or -1 and is converted to `size_t`; three more for floating point numbers. -/
def indent (nameSize : BitVec 64) (floating : Bool) : BitVec 64 :=
  let len := nameSize + 1
  let diff := (if len < 32 then (-1 : BitVec 64) else 0) &&& (32 - len)
  diff + (if floating then 1 else 0) * 3

end Phasar.Stats
