import Verif.Store.FlowFns
import Verif.IDE.Ifds
/-!
# The IFDS analysis of uninitialized variables as a tabulation problem

`lib/PhasarLLVM/DataFlow/IfdsIde/Problems/IFDSUninitializedVariables.cpp`, on programs given as tables of instructions.  What
programs do with undefined values is in `Verif/Analysis/UninitSem.lean`.
-/
namespace Phasar.Uninit
open Phasar Phasar.IDE

/-- Facts `const llvm::Value *`: the zero value (`LLVMZeroValue.h:53`), an `llvm::UndefValue`, another literal, and the other
values (instructions, parameters, globals) by number; the result of the instruction `n` is `node n`. -/
inductive Val
  | zero
  | undef (c : Nat)
  | lit (c : Nat)
  | node (k : Nat)
deriving DecidableEq, Repr

/-- `llvm::isa<llvm::UndefValue>` (`IFDSUninitializedVariables.cpp:155,196-197`). -/
def Val.isUndef : Val → Bool
  | .undef _ => true
  | _ => false

/-- The types of allocated variables the analysis tells apart (`IFDSUninitializedVariables.cpp:174-177`). -/
inductive Ty
  | int
  | float
  | ptr
  | array
  | struct
  | vector
deriving DecidableEq, Repr

/-- The instructions the analysis tells apart (`IFDSUninitializedVariables.cpp:98,170,205-207`).  `load` and `ret` are treated
as `op`, which stands for all others (arithmetic, comparisons, select, branches); the semantics tells them apart. -/
inductive Inst
  | alloca (t : Ty)
  | store (v ptr : Val)
  | load (ptr : Val)
  | gep (base : Val) (idx : List Val)
  | cast (v : Val)
  | phi (ops : List Val)
  | op (ops : List Val)
  | call (args : List Val)
  | ret (v : Option Val)
deriving DecidableEq, Repr

/-- A program as far as the analysis asks for it.  `isConst` holds of globals; `isPtr` is `getType()->isPointerTy()` (`:328,356`);
`called` is `getCalledFunction` (`:324`), which is null for calls through pointers; `callOrInvoke` is the test of `:221-222,
305-306`, which fails for `callbr`.  `isDecl`, `inits` are not asked for by the analysis: the function has no body, and initializes what its pointer
arguments point to. -/
structure Prog where
  inst : Nat → Inst
  icf : ICFG Nat Nat
  isConst : Nat → Bool
  isPtr : Val → Bool
  params : Nat → List Nat
  called : Nat → Option Nat
  callOrInvoke : Nat → Bool
  isDecl : Nat → Bool
  inits : Nat → Bool
  entries : List Nat

variable (p : Prog)

/-- `operands()` (`IFDSUninitializedVariables.cpp:194,317`), for calls without the called function. -/
def Prog.operands (n : Nat) : List Val := match p.inst n with
  | .alloca _ => []
  | .store v ptr => [v, ptr]
  | .load ptr => [ptr]
  | .gep base idx => base :: idx
  | .cast v => [v]
  | .phi ops => ops
  | .op ops => ops
  | .call as => as
  | .ret v => v.toList

/-- Arguments of the call (`CallBase::args`, `getArgOperand`). -/
def Prog.args (n : Nat) : List Val := match p.inst n with
  | .call as => as
  | _ => []

/-- Is a variable of this type tracked (`IFDSUninitializedVariables.cpp:174-177`)? -/
def Ty.tracked : Ty → Bool
  | .int => true
  | .float => true
  | .ptr => true
  | .array => true
  | .struct => false
  | .vector => false

/-- The operand at which the loop of `IFDSUninitializedVariables.cpp:194-212` stops: the first that is the fact or undefined. -/
def Prog.firstUse (n : Nat) (s : Val) : Option Val := (p.operands n).find? fun o => decide (o = s) || o.isUndef

/-- Does the loop record what it stops at (`IFDSUninitializedVariables.cpp:205-207`)?  Stores and allocations do not get there. -/
def Prog.records (n : Nat) : Bool := match p.inst n with
  | .gep _ _ => false
  | .cast _ => false
  | .phi _ => false
  | .store _ _ => false
  | .alloca _ => false
  | _ => true

/-- `getNormalFlowFunction` (`IFDSUninitializedVariables.cpp:38-215`). -/
def Prog.normalFlow (n _succ : Nat) : Val → List Val := match p.inst n with
  | .store v ptr => fun s =>
    if s = v ∨ (s = .zero ∧ v.isUndef) then FSet.ofList [s, ptr]
    else if s = ptr then [] else FSet.ofList [s]
  | .alloca t => fun s =>
    if s = .zero then (if t.tracked then FSet.ofList [s, .node n] else FSet.ofList [s]) else FSet.ofList [s]
  | _ => fun s => match p.firstUse n s with
    | some _ => FSet.ofList [s, .node n]
    | none => FSet.ofList [s]

/-- `getCallFlowFunction` (`IFDSUninitializedVariables.cpp:217-298`).  `Actuals[Idx]` for more formal than actual parameters
is undefined; the model stops at the shorter list. -/
def Prog.callFlow (n f : Nat) : Val → List Val :=
  if p.callOrInvoke n then fun s =>
    if s ≠ .zero then
      FSet.ofList ((((p.params f).zip (p.args n)).filter fun x => decide (s = x.2)).map fun x => .node x.1)
    else FSet.ofList [s]
  else fun s => FSet.ofList [s]

/-- The pointer parameters equal to the fact, as arguments of the call (`IFDSUninitializedVariables.cpp:324-333`): the
parameters are those of `getCalledFunction`, not of the function that is left.  `getArgOperand(I)` beyond the arguments is
undefined; the model stops at the shorter list. -/
def Prog.retArgs (c : Nat) (s : Val) : List Val := match p.called c with
  | some f => (((p.params f).zip (p.args c)).filter fun x => decide (.node x.1 = s) && p.isPtr (.node x.1)).map Prod.snd
  | none => []

/-- `getRetFlowFunction` (`IFDSUninitializedVariables.cpp:300-343`). -/
def Prog.retFlow (c _f e _r : Nat) : Val → List Val :=
  if p.callOrInvoke c then fun s =>
    FSet.ofList ((if (p.operands e)[0]? = some s then [.node c] else []) ++ p.retArgs c s)
  else fun _ => []

/-- `getCallToRetFlowFunction` (`IFDSUninitializedVariables.cpp:345-369`). -/
def Prog.ctrFlow (n _r : Nat) : Val → List Val := fun s =>
  if p.isPtr s && decide (s ∈ p.args n) then [] else FSet.ofList [s]

/-- The analysis as the solver sees it: an IFDS problem without summaries and with the zero value at the entry points
(`IFDSUninitializedVariables.cpp:371-384`; `createDefaultSeeds`, `IDETabulationProblem.h:167-175`). -/
def Prog.problem : Problem Nat Val Nat BinaryDomain (EF Empty BinaryDomain) where
  icf := p.icf
  alg := ifdsAlg
  normalFlow := p.normalFlow
  callFlow := p.callFlow
  retFlow := p.retFlow
  ctrFlow := p.ctrFlow
  summaryFlow := fun _ _ => none
  normalEdge := fun _ _ _ _ => .id
  callEdge := fun _ _ _ _ => .id
  retEdge := fun _ _ _ _ _ _ => .id
  ctrEdge := fun _ _ _ _ => .id
  sumEdge := fun _ _ _ _ => .id
  zero := .zero
  seeds := p.entries.map fun sp => (sp, [(.zero, .BOTTOM)])
  followReturnsPastSeeds := false

/-- The member `UndefValueUses` after the solver has run (`IFDSUninitializedVariables.cpp:208`): the flow function of a
statement is applied to every fact that holds there, once for each successor (`IDESolver.h:562-566`). -/
def Prog.Reported (w : VS Nat Val BinaryDomain) (n : Nat) (v : Val) : Prop :=
  p.icf.isCall n = false ∧ p.icf.succs n ≠ [] ∧ p.records n = true ∧
    ∃ s, ifdsResultsAt w n s ∧ p.firstUse n s = some v

/-! ## The report with source lines -/

/-- `UninitResult` (`include/phasar/PhasarLLVM/DataFlow/IfdsIde/Problems/IFDSUninitializedVariables.h:25-37`): the line, the
function and the statements; variable names, source text and file are left out. -/
structure UResult where
  line : Nat
  func : Nat
  trace : List Nat
deriving DecidableEq, Repr

/-- A default `UninitResult`, whose line is 0. -/
def UResult.none : UResult := ⟨0, 0, []⟩

/-- `UninitResult::empty` (`IFDSUninitializedVariables.cpp:477-479`). -/
def UResult.empty (u : UResult) : Bool := u.line == 0

/-- The loop of `aggregateResults` (`IFDSUninitializedVariables.cpp:447-470`) with `CurrLineNr`, `UR` and `Results` as state. -/
def aggLoop (line func : Nat → Nat) : List Nat → Nat → UResult → List UResult → List UResult × UResult
  | [], _, ur, res => (res, ur)
  | u :: us, cur, ur, res =>
    if cur ≠ line u then
      aggLoop line func us (line u) ⟨line u, func u, [u]⟩ (if ur.empty then res else res ++ [ur])
    else
      aggLoop line func us cur { ur with trace := ur.trace ++ [u] } res

/-- `aggregateResults` (`IFDSUninitializedVariables.cpp:440-475`) for the keys of `UndefValueUses` in the order of the map, with
`getLineFromIR` and `getFunctionNameFromIR`. -/
def aggregate (line func : Nat → Nat) (users : List Nat) : List UResult :=
  let r := aggLoop line func users 0 .none []
  if r.2.empty then r.1 else r.1 ++ [r.2]

end Phasar.Uninit
