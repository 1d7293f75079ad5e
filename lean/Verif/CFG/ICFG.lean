import Verif.CFG.Export
import Verif.IDE.Spec
/-!
# The inter-procedural control-flow graph as the solvers see it

Model of `lib/PhasarLLVM/ControlFlow/LLVMBasedICFG.cpp` and `LLVMBasedBackwardICFG.cpp` on top of the intra-procedural graphs.
Neither class lets the user turn off `IgnoreDbgInstructions` (`LLVMBasedCFG.h:57`, no constructor of `LLVMBasedICFG` sets it), so
debug instructions are always ignored.  The answers are put together to the interface the IDE solver uses (`IDE.ICFG`).
-/
namespace Phasar.CFG

/-- An `LLVMBasedICFG`: the functions of the `IRDB`, their bodies, `llvm::isa<llvm::CallBase>` (`LLVMBasedCFG.h:70-72`) and the
call graph (`getCalleesOfCallAt`, `getCallersOf`, `LLVMBasedICFG.h:186`), which is given. -/
structure Prog where
  funs : List Nat
  fns : Nat → Fn
  isCall : GNode → Bool
  callees : GNode → List Nat
  callers : Nat → List GNode

/-- `IRDB->getAllInstructions()`, `LLVMProjectIRDB.h:144-148`: the instructions of all functions (instructions that were added
without the `IRDB` knowing are left out). -/
def allInstr (m : Prog) : List GNode := m.funs.flatMap fun g => (instructions (m.fns g)).map fun n => (g, n)

/-- `getSuccsOf`, `LLVMBasedCFG.cpp:67-103`; a null pointer (excluded by `C42.total`) is left out. -/
def gsuccs (m : Prog) (a : GNode) : List GNode := ((succs true (m.fns a.1) a.2).getD []).map fun k => (a.1, k)

/-- `getStartPointsOf`, `LLVMBasedCFG.cpp:129-147`; a null pointer (excluded by `C42_start`) is left out. -/
def gstarts (m : Prog) (g : Nat) : List GNode := ((startPoints true (m.fns g)).getD []).map fun k => (g, k)

/-- `allNonCallStartNodesImpl`, `LLVMBasedICFG.cpp:118-130`. -/
def nonCallStarts (m : Prog) : List GNode :=
  (allInstr m).filter fun a => !m.isCall a && !isStartPoint (m.fns a.1) a.2

/-- `getCallsFromWithinImpl`, `LLVMBasedICFG.cpp:132-141`. -/
def callsFromWithin (m : Prog) (g : Nat) : List GNode :=
  ((instructions (m.fns g)).map fun n => (g, n)).filter m.isCall

/-- `getReturnSitesOfCallAtImpl`, `LLVMBasedICFG.cpp:143-149`. -/
def returnSites (m : Prog) (a : GNode) : List GNode := gsuccs m a

/-- The elements of a list that are in `K`. (Not code: an instruction is represented by its place, and not every pair of numbers
is one.) -/
def lift {A : Type} [DecidableEq A] (K l : List A) : List {a : A // a ∈ K} :=
  l.filterMap fun a => if h : a ∈ K then some ⟨a, h⟩ else none

/-- The queries the solver makes to an `LLVMBasedICFG`, `LLVMBasedICFG.h:160-190` and `LLVMBasedCFG.h:59-100`, with statements
among `K`. -/
def icfg (m : Prog) (K : List GNode) : IDE.ICFG {a : GNode // a ∈ K} Nat where
  succs := fun n => lift K (gsuccs m n.1)
  isCall := fun n => m.isCall n.1
  isExit := fun n => isExitInst (m.fns n.1.1) n.1.2
  isStart := fun n => isStartPoint (m.fns n.1.1) n.1.2
  funOf := fun n => n.1.1
  starts := fun g => lift K (gstarts m g)
  callees := fun n => m.callees n.1
  retSites := fun n => lift K (returnSites m n.1)
  callers := fun g => lift K (m.callers g)
  callsIn := fun g => lift K (callsFromWithin m g)
  nonCallStart := lift K (nonCallStarts m)

/-- The instructions that are no debug instructions (not code: the statements the solver can reach). -/
def visInstr (m : Prog) : List GNode := (allInstr m).filter fun a => !isDbg (m.fns a.1) a.2

/-! ## The backward graph -/

/-- A statement of the backward graph: an instruction, or the `BackwardRet` of a function, `LLVMBasedBackwardCFG.cpp:25-30`. -/
abbrev BGNode := Nat × BNode

/-- An instruction as a statement of the backward graph. -/
def inB (a : GNode) : BGNode := (a.1, some a.2)

/-- All statements of the backward graph, `LLVMBasedBackwardCFG.cpp:20-31`. -/
def ballInstr (m : Prog) : List BGNode := (allInstr m).map inB ++ m.funs.map fun g => (g, none)

/-- The instruction at a statement of the backward graph. -/
def instOf (a : BGNode) : Option GNode := a.2.map fun n => (a.1, n)

/-- `getSuccsOf` of the backward graph, `LLVMBasedBackwardCFG.cpp:50-64`. -/
def bgsuccs (m : Prog) (a : BGNode) : List BGNode := (bsuccs true true (m.fns a.1) a.2).map fun k => (a.1, k)

/-- The queries the solver makes to an `LLVMBasedBackwardICFG`, `LLVMBasedBackwardICFG.cpp:15-64`.  A `BackwardRet` is a
`ReturnInst`, so it is no call and the call graph does not know it. -/
def bicfg (m : Prog) (K : List BGNode) : IDE.ICFG {a : BGNode // a ∈ K} Nat where
  succs := fun n => lift K (bgsuccs m n.1)
  isCall := fun n => (instOf n.1).any m.isCall
  isExit := fun n => bisExitInst true (m.fns n.1.1) n.1.2
  isStart := fun n => bisStartPoint (m.fns n.1.1) n.1.2
  funOf := fun n => n.1.1
  starts := fun g => lift K ((bstartPoints (m.fns g)).map fun k => (g, k))
  callees := fun n => ((instOf n.1).map m.callees).getD []
  retSites := fun n => lift K (bgsuccs m n.1)
  callers := fun g => lift K ((m.callers g).map inB)
  callsIn := fun g => lift K ((callsFromWithin m g).map inB)
  nonCallStart := lift K ((nonCallStarts m).map inB)

/-! ## Specification -/

/-- What LLVM guarantees: function bodies are well formed, no block jumps to the entry block, debug instructions are calls,
`ret` and `resume` have no successors and are no calls. -/
structure Prog.WF (m : Prog) : Prop where
  fns : ∀ g ∈ m.funs, CFG.WF (m.fns g)
  entry : ∀ g ∈ m.funs, ∀ B ∈ m.fns g, 0 ∉ B.succs
  dbg : ∀ g ∈ m.funs, ∀ n, isDbg (m.fns g) n = true → m.isCall (g, n) = true
  exits : ∀ g ∈ m.funs, ∀ B ∈ m.fns g, B.term = .ret ∨ B.term = .resume → B.succs = []

/-- The body of the function begins with a debug instruction. -/
def StartsDbg (f : Fn) : Prop := ∃ B, f[0]? = some B ∧ dbgAt B 0 = true

end Phasar.CFG
