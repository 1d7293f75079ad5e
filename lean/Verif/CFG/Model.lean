/-!
# The intra-procedural control-flow graph

Model of `lib/PhasarLLVM/ControlFlow/LLVMBasedCFG.cpp` and `LLVMBasedBackwardCFG.cpp` over verified LLVM functions: every
block ends in its only terminator.  An instruction is a pair of block number and position.
-/
namespace Phasar.CFG

/-- Instructions that are no terminators: `dbg.declare`, another `llvm::DbgInfoIntrinsic`, or anything else. -/
inductive Kind where
  | plain
  | declare
  | dbg
deriving DecidableEq

/-- `llvm::isa<llvm::DbgInfoIntrinsic>`. -/
def Kind.isDbg : Kind → Bool
  | .plain => false
  | _ => true

/-- Terminators, as far as the code distinguishes them: `llvm::BranchInst` (with the answer of
`isStaticVariableLazyInitializationBranch`, `LLVMShorthands.cpp:440-468`), `ReturnInst`, `ResumeInst` and others. -/
inductive Term where
  | br (lazyInit : Bool)
  | ret
  | resume
  | other
deriving DecidableEq

/-- `llvm::BasicBlock`: the instructions before the terminator, the terminator and its successors (block numbers). -/
structure Blk where
  ins : List Kind
  term : Term
  succs : List Nat
deriving DecidableEq

/-- An `llvm::Function`: its blocks, the entry block first.  No blocks: a declaration. -/
abbrev Fn := List Blk

/-- An instruction: block and position; the position behind the other instructions is the terminator. -/
abbrev Node := Nat × Nat

/-- What the LLVM verifier guarantees, as far as needed: successors exist, and a lazy-initialization branch is
conditional (`LLVMShorthands.cpp:442`), so it has a successor. -/
structure WF (f : Fn) : Prop where
  succs : ∀ B ∈ f, ∀ s ∈ B.succs, s < f.length
  lazy : ∀ B ∈ f, B.term = .br true → B.succs ≠ []

/-- `n` is an instruction of `f`. -/
def Valid (f : Fn) (n : Node) : Prop := ∃ B, f[n.1]? = some B ∧ n.2 ≤ B.ins.length

/-- `llvm::isa<llvm::DbgInfoIntrinsic>(I)` for the instruction at position `i` of a block. -/
def dbgAt (B : Blk) (i : Nat) : Bool :=
  match B.ins[i]? with
  | some k => k.isDbg
  | none => false

/-- `I->getNextNode()`. -/
def nextNode (B : Blk) (i : Nat) : Option Nat := if i < B.ins.length then some (i + 1) else none

/-- `I->getPrevNode()`. -/
def prevNode : Nat → Option Nat
  | 0 => none
  | i + 1 => some i

/-- The number of debug instructions at the beginning of a list. -/
def skip : List Kind → Nat
  | [] => 0
  | k :: l => if k.isDbg then skip l + 1 else 0

/-- `I->getNextNonDebugInstruction(false)` (LLVM: the first later instruction that is no `DbgInfoIntrinsic`). -/
def nextNonDbg (B : Blk) (i : Nat) : Option Nat :=
  if i < B.ins.length then some (i + 1 + skip (B.ins.drop (i + 1))) else none

/-- `I->getPrevNonDebugInstruction(false)`. -/
def prevNonDbg (B : Blk) : Nat → Option Nat
  | 0 => none
  | i + 1 => if dbgAt B i then prevNonDbg B i else some i

/-- The first instruction of a block, or the first that is no debug instruction, `LLVMBasedCFG.cpp:82-86, 94-101`. -/
def front (ign : Bool) (B : Blk) : Option Nat :=
  if ign && dbgAt B 0 then nextNonDbg B 0 else some 0

/-- `BB->getTerminator()`, and the skipping of debug instructions behind it, `LLVMBasedCFG.cpp:55-61` (a terminator is no
debug instruction). -/
def termOf (B : Blk) : Nat := B.ins.length

/-- The predecessors of block `b` in `pred_begin … pred_end`: every block, as often as `b` is among its successors.
(LLVM's order is that of the use list; here it is the order of the blocks.) -/
def predBlocks (f : Fn) (b : Nat) : List (Nat × Blk) :=
  (f.zipIdx.flatMap (fun p => List.replicate (p.1.succs.count b) (p.2, p.1)))

/-- `getPredsOfImpl`, `LLVMBasedCFG.cpp:35-64`. -/
def preds (ign : Bool) (f : Fn) (n : Node) : List Node :=
  match f[n.1]? with
  | none => []
  | some B =>
    match if ign then prevNonDbg B n.2 else prevNode n.2 with
    | some i => [(n.1, i)]
    | none => (predBlocks f n.1).map (fun p => (p.1, termOf p.2))

/-- The instruction that begins block `b`. -/
def enter (ign : Bool) (f : Fn) (b : Nat) : Option Node :=
  (f[b]?).bind (fun B => (front ign B).map (fun i => (b, i)))

/-- `getSuccsOfImpl`, `LLVMBasedCFG.cpp:67-103`; `none`: a null pointer is returned or dereferenced. -/
def succs (ign : Bool) (f : Fn) (n : Node) : Option (List Node) :=
  match f[n.1]? with
  | none => none
  | some B =>
    match if ign then nextNonDbg B n.2 else nextNode B n.2 with
    | some i => some [(n.1, i)]
    | none =>
      if B.term = .br true then (B.succs.head?).bind (fun b => (enter ign f b).map (fun m => [m]))
      else B.succs.mapM (enter ign f)

/-- `llvm::instructions(Fun)`. -/
def instructions (f : Fn) : List Node :=
  f.zipIdx.flatMap (fun p => (List.range (p.1.ins.length + 1)).map (fun i => (p.2, i)))

/-- `isa<DbgInfoIntrinsic>` for a node. -/
def isDbg (f : Fn) (n : Node) : Bool :=
  match f[n.1]? with
  | some B => dbgAt B n.2
  | none => false

/-- `getAllControlFlowEdgesImpl`, `LLVMBasedCFG.cpp:106-126`. -/
def allEdges (ign : Bool) (f : Fn) : Option (List (Node × Node)) :=
  ((instructions f).mapM (fun n =>
    if ign && isDbg f n then some [] else (succs ign f n).map (fun l => l.map (fun m => (n, m))))).map List.flatten

/-- `getStartPointsOfImpl`, `LLVMBasedCFG.cpp:129-147`; `none`: the result contains a null pointer. -/
def startPoints (ign : Bool) (f : Fn) : Option (List Node) :=
  match f with
  | [] => some []
  | B :: _ => (front ign B).map (fun i => [(0, i)])

/-- `isStartPointImpl`, `LLVMBasedCFG.cpp:167-175`. -/
def isStartPoint (f : Fn) (n : Node) : Bool :=
  match f with
  | [] => false
  | B :: _ => decide (n = (0, 0)) || (dbgAt B 0 && decide ((nextNonDbg B 0).map (fun i => ((0, i) : Node)) = some n))

/-- `appendAllExitPoints`, `LLVMShorthands.cpp:321-337`, for `getExitPointsOfImpl`, `LLVMBasedCFG.cpp:150-165`. -/
def exitPoints (f : Fn) : List Node :=
  (f.zipIdx.filter (fun p => decide (p.1.term = .ret ∨ p.1.term = .resume))).map (fun p => (p.2, termOf p.1))

/-- `isExitInstImpl`, `LLVMBasedCFG.h:73-75`. -/
def isExitInst (f : Fn) (n : Node) : Bool :=
  match f[n.1]? with
  | some B => decide (n.2 = termOf B ∧ B.term = .ret)
  | none => false

/-- `isBranchTargetImpl`, `LLVMBasedCFG.cpp:215-225`. -/
def isBranchTarget (f : Fn) (n m : Node) : Bool :=
  match f[n.1]? with
  | some B => decide (n.2 = termOf B) && B.succs.any (fun b => decide (m = (b, 0)))
  | none => false

/-- `isFallThroughSuccessorImpl`, `LLVMBasedCFG.cpp:202-213`; `isConditional` means two successors. -/
def isFallThrough (f : Fn) (n m : Node) : Bool :=
  match f[n.1]? with
  | some B =>
    decide (n.2 = termOf B) && (match B.term with | .br _ => true | _ => false) &&
      (match B.succs with | [b] => decide (m = (b, 0)) | [_, b] => decide (m = (b, 0)) | _ => false)
  | none => false

/-! ## The backward graph -/

/-- A node of the backward graph: an instruction or the function's `BackwardRet`, `LLVMBasedBackwardCFG.cpp:25-30`. -/
abbrev BNode := Option Node

/-- `LLVMBasedBackwardCFG::getPredsOfImpl`, `LLVMBasedBackwardCFG.cpp:40-48`; `none`: for a `BackwardRet`,
`base_t::getFunctionOfImpl` calls `getFunction()` on an instruction without parent. -/
def bpreds (ign : Bool) (f : Fn) : BNode → Option (List BNode)
  | none => none
  | some n => (succs ign f n).map (fun l => l.map some)

/-- `LLVMBasedBackwardCFG::getSuccsOfImpl`, `LLVMBasedBackwardCFG.cpp:50-64`; `rets`: the object was built with an `IRDB`, so
each function has a `BackwardRet`. -/
def bsuccs (rets ign : Bool) (f : Fn) : BNode → List BNode
  | none => []
  | some n =>
    let r := (preds ign f n).map some
    if r.isEmpty && rets then [none] else r

/-- `LLVMBasedBackwardCFG::getAllControlFlowEdgesImpl`, `LLVMBasedBackwardCFG.cpp:66-92`: only `dbg.declare` is left out. -/
def ballEdges (rets ign : Bool) (f : Fn) : List (BNode × BNode) :=
  (instructions f).flatMap (fun n =>
    if ign && decide ((f[n.1]?.bind (fun B => B.ins[n.2]?)) = some .declare) then []
    else (bsuccs rets ign f (some n)).map (fun m => (m, some n)))

/-- `LLVMBasedBackwardCFG::getStartPointsOfImpl`, `LLVMBasedBackwardCFG.cpp:94-97`. -/
def bstartPoints (f : Fn) : List BNode := (exitPoints f).map some

/-- `LLVMBasedBackwardCFG::getExitPointsOfImpl`, `LLVMBasedBackwardCFG.cpp:99-104`; `none`: the result contains a null pointer. -/
def bexitPoints (rets ign : Bool) (f : Fn) : Option (List BNode) :=
  if rets then some [none] else (startPoints ign f).map (fun l => l.map some)

/-- `LLVMBasedBackwardCFG::isExitInstImpl`, `LLVMBasedBackwardCFG.cpp:106-109` (a `BackwardRet` exists only if `rets`; the last case
does not occur). -/
def bisExitInst (rets : Bool) (f : Fn) : BNode → Bool
  | none => rets
  | some n => !rets && isStartPoint f n

/-- `LLVMBasedBackwardCFG::isStartPointImpl`, `LLVMBasedBackwardCFG.cpp:111-113` (`isExitInstImpl` is `isa<ReturnInst>`, which a
`BackwardRet` satisfies too). -/
def bisStartPoint (f : Fn) : BNode → Bool
  | none => true
  | some n => isExitInst f n

/-- `LLVMBasedBackwardCFG::isBranchTargetImpl`, `LLVMBasedBackwardCFG.cpp:120-130`. -/
def bisBranchTarget (f : Fn) (n m : Node) : Bool :=
  match f[m.1]? with
  | some B => decide (m.2 = termOf B) && (match B.term with | .br _ => true | _ => false) && B.succs.any (fun b => decide (n = (b, 0)))
  | none => false

/-! ## Specification -/

/-- Specification: the instructions the analysis looks at. -/
def Visible (ign : Bool) (f : Fn) (n : Node) : Prop := Valid f n ∧ (ign = true → isDbg f n = false)

/-- Specification: `j` comes directly behind `i` in a block, not counting invisible instructions. -/
def Adjacent (ign : Bool) (B : Blk) (i j : Nat) : Prop :=
  i < j ∧ j ≤ B.ins.length ∧ ∀ k, i < k → k < j → ign = true ∧ dbgAt B k = true

/-- Specification: no visible instruction of the block is before `i`. -/
def First (ign : Bool) (B : Blk) (i : Nat) : Prop := i ≤ B.ins.length ∧ ∀ k, k < i → ign = true ∧ dbgAt B k = true

/-- Specification: control may pass from `n` to `m`, both visible: within a block, or from a terminator to the beginning
of a successor block. -/
def Step (ign : Bool) (f : Fn) (n m : Node) : Prop :=
  ∃ B C, f[n.1]? = some B ∧ f[m.1]? = some C ∧
    ((n.1 = m.1 ∧ Adjacent ign B n.2 m.2) ∨ (n.2 = B.ins.length ∧ m.1 ∈ B.succs ∧ First ign C m.2))

/-- Specification: `n` is a branch that checks whether a static variable has been initialized. -/
def Lazy (f : Fn) (n : Node) : Prop := ∃ B, f[n.1]? = some B ∧ n.2 = B.ins.length ∧ B.term = .br true

end Phasar.CFG
