import Verif.Store.LLVMFlow
import Verif.IDE.Ifds
/-!
# The IFDS analysis of mutable memory locations

`lib/PhasarLLVM/DataFlow/IfdsIde/Problems/IFDSConstAnalysis.cpp`.  The flow functions of this analysis depend on the set
`Initialized`, which the analysis changes whenever it is asked for the flow function of a write.  What is a fact therefore depends
on the order in which the solver asks.
-/
namespace Phasar.Const
open Phasar Phasar.IDE

/-- What the analysis tells apart among values (`IFDSConstAnalysis.cpp:207-234`): instructions, which may be stack or heap
allocations (`isAllocaInstOrHeapAllocaFunction`, `LLVMShorthands.cpp:54-67`) and are in a function; global values; parameters
of a function; others. -/
inductive Kind
  | inst (alloc : Bool) (f : Nat)
  | global
  | arg (f : Nat)
  | other
deriving DecidableEq, Repr

/-- Statements as the analysis sees them (`IFDSConstAnalysis.cpp:51-55,94-107,139-140`): a store with its pointer operand,
which may set up a virtual table (`isTouchVTableInst`, `LLVMCXXShorthands.cpp:20-43`); a memory intrinsic with its first operand;
another call with its arguments; a return with its value. -/
inductive Inst
  | store (ptr : Nat) (vtable : Bool)
  | mem (dst : Nat)
  | call (args : List Nat)
  | ret (v : Option Nat)
  | other
deriving DecidableEq, Repr

/-- A program as far as the analysis asks for it; `alias` is `getAliasSet` (without position, `IFDSConstAnalysis.cpp:61,142`),
`callee` what `mapFactsToCallee` and `mapFactsToCaller` look at. -/
structure Prog where
  inst : Nat → Inst
  icf : ICFG Nat Nat
  ir : FlowFn.IR Nat
  kind : Nat → Kind
  isPtr : Nat → Bool
  alias : Nat → List Nat
  callee : Nat → FlowFn.Callee Nat
  entries : List Nat

variable (p : Prog)

/-- The pointer operand if the statement counts as a write (`IFDSConstAnalysis.cpp:51-58,139-140`). -/
def Prog.write (n : Nat) : Option Nat := match p.inst n with
  | .store ptr vt => if vt then none else some ptr
  | .mem dst => some dst
  | _ => none

/-- `llvm::isa<llvm::GlobalValue>`. -/
def Prog.isGlobal (v : Nat) : Bool := p.kind v == .global

/-- The conditions of `getContextRelevantAliasSet` (`IFDSConstAnalysis.cpp:207-234`). -/
def Prog.relevant (f v : Nat) : Bool := match p.kind v with
  | .inst alloc g => alloc || g == f
  | .global => true
  | .arg g => g == f
  | .other => false

/-- `getContextRelevantAliasSet` (`IFDSConstAnalysis.cpp:196-238`). -/
def Prog.relevantAliases (ptr f : Nat) : List Nat := (p.alias ptr).filter (p.relevant f)

/-- `isInitialized` (`IFDSConstAnalysis.cpp:240-242`). -/
def Prog.isInitialized (init : List Nat) (v : Nat) : Bool := p.isGlobal v || init.contains v

/-- Asking for the flow function of the statement `n` with the member `Initialized` (`IFDSConstAnalysis.cpp:51-89,139-158`):
the new member, and the facts to generate from zero (`none`: identity). -/
def Prog.ask (init : List Nat) (n : Nat) : List Nat × Option (List Nat) := match p.write n with
  | none => (init, none)
  | some ptr =>
    if (p.alias ptr).any (p.isInitialized init) then (init, some (p.relevantAliases ptr (p.icf.funOf n)))
    else (FSet.insert init ptr, none)

/-- The member `Initialized` after the solver has asked for these statements, in this order. -/
def Prog.state (init : List Nat) (asked : List Nat) : List Nat := asked.foldl (fun s n => (p.ask s n).1) init

/-- What the analysis answered when it was first asked for `n`.  Later requests are answered by the cache of the solver
(`FlowEdgeFunctionCache.h:192-224,284-316`; stores and memory intrinsics have one successor). -/
def Prog.answer : List Nat → List Nat → Nat → Option (List Nat)
  | _, [], _ => none
  | init, m :: asked, n => if m = n then (p.ask init m).2 else Prog.answer (p.ask init m).1 asked n

/-- The flow function of the statement in the cache. -/
def Prog.flow (init asked : List Nat) (n : Nat) : FlowFn.FF Nat := match p.answer init asked n with
  | some g => FlowFn.generateManyFlows g p.ir.zero
  | none => FlowFn.identityFlow

/-- `getNormalFlowFunction` (`IFDSConstAnalysis.cpp:47-89`), as cached. -/
def Prog.normalFlow (init asked : List Nat) (n _succ : Nat) : Nat → List Nat := p.flow init asked n

/-- Arguments of the call. -/
def Prog.args (n : Nat) : List Nat := match p.inst n with
  | .call as => as
  | .mem d => [d]
  | _ => []

/-- `getCallFlowFunction` (`IFDSConstAnalysis.cpp:91-116`). -/
def Prog.callFlow (n f : Nat) : Nat → List Nat := match p.inst n with
  | .mem _ => FlowFn.killAllFlows
  | _ => FlowFn.mapFactsToCallee p.ir (p.args n) (p.callee f) (fun a s => decide (a = s) && p.isPtr a) true true

/-- The value of a return statement. -/
def Prog.retVal (e : Nat) : Option Nat := match p.inst e with
  | .ret v => v
  | _ => none

/-- `getRetFlowFunction` (`IFDSConstAnalysis.cpp:118-131`). -/
def Prog.retFlow (c f e _r : Nat) : Nat → List Nat :=
  FlowFn.mapFactsToCaller p.ir c (p.args c) (p.callee f) (p.retVal e) (fun x s => decide (x = s) && p.isPtr x)
    (fun x s => decide (x = s)) true true

/-- `getCallToRetFlowFunction` (`IFDSConstAnalysis.cpp:133-160`), as cached. -/
def Prog.ctrFlow (init asked : List Nat) (n _r : Nat) : Nat → List Nat := match p.inst n with
  | .mem _ => p.flow init asked n
  | _ => FlowFn.identityFlow

/-- The analysis as the solver sees it, with the flow functions that are in the cache at the end.  `init` is the member
`Initialized` at the start, which is empty unless the object has been used before; `asked` is the order in which the solver asked
for flow functions of writes.  No summaries (`IFDSConstAnalysis.cpp:162-166`); seeds are zero at the entry points (`:168-173`). -/
def Prog.problem (init asked : List Nat) : Problem Nat Nat Nat BinaryDomain (EF Empty BinaryDomain) where
  icf := p.icf
  alg := ifdsAlg
  normalFlow := p.normalFlow init asked
  callFlow := p.callFlow
  retFlow := p.retFlow
  ctrFlow := p.ctrFlow init asked
  summaryFlow := fun _ _ => none
  normalEdge := fun _ _ _ _ => .id
  callEdge := fun _ _ _ _ => .id
  retEdge := fun _ _ _ _ _ _ => .id
  ctrEdge := fun _ _ _ _ => .id
  sumEdge := fun _ _ _ _ => .id
  zero := p.ir.zero
  seeds := p.entries.map fun sp => (sp, [(p.ir.zero, .BOTTOM)])
  followReturnsPastSeeds := false

/-- The test `isAllocaInstOrHeapAllocaFunction(Fact) || isa<GlobalValue>(Fact)` (`IFDSConstAnalysis.cpp:266-267`). -/
def Prog.isLoc (v : Nat) : Bool := match p.kind v with
  | .inst alloc _ => alloc
  | .global => true
  | _ => false

/-- Is the value an instruction of the function (`IFDSConstAnalysis.cpp:256-257`)? -/
def Prog.inFun (f v : Nat) : Bool := match p.kind v with
  | .inst _ g => g == f
  | _ => false

/-- One exit of a function in step 1 of `emitTextReport` (`IFDSConstAnalysis.cpp:248-277`): `res` is `ifdsResultsAt`. -/
def Prog.strike (res : Nat → List Nat) (locs : List Nat) (f e : Nat) : List Nat :=
  if (res e).isEmpty then locs.filter fun m => !p.inFun f m
  else (res e).foldl (fun ls d => if p.isLoc d then ls.filter (fun m => decide (m ≠ d)) else ls) locs

/-- The member `AllMemLocs` after step 1 of `emitTextReport` (`IFDSConstAnalysis.cpp:251-277`): these locations are reported as
immutable.  `exits` are the exits of all functions of the module; `locs` is the member before, which nothing ever fills
(`IFDSConstAnalysis.h:209`). -/
def Prog.report (res : Nat → List Nat) (exits : List (Nat × Nat)) (locs : List Nat) : List Nat :=
  exits.foldl (fun ls x => p.strike res ls x.1 x.2) locs

/-- `emitTextReport` (`IFDSConstAnalysis.cpp:251-290`): what it prints between the rules; `none` is the line "No immutable
memory locations found!". -/
def Prog.emit (res : Nat → List Nat) (exits : List (Nat × Nat)) : Option (List Nat) :=
  let l := p.report res exits []
  if l.isEmpty then none else some l

/-! ## What programs do: independent of the analysis -/

/-- A step of the program from a statement with suspended calls to the next: to a successor, into a function, back from it, or
past a call (of a function without body). -/
inductive Step (p : Prog) : List Nat × Nat → List Nat × Nat → Prop
  | normal {stk n n'} : p.icf.isCall n = false → n' ∈ p.icf.succs n → Step p (stk, n) (stk, n')
  | call {stk n g sp} : p.icf.isCall n = true → g ∈ p.icf.callees n → (p.callee g).decl = false → sp ∈ p.icf.starts g →
      Step p (stk, n) (n :: stk, sp)
  | ret {stk c n r} : p.icf.isCall n = false → p.icf.isExit n = true → r ∈ p.icf.retSites c → Step p (c :: stk, n) (stk, r)
  | past {stk n r} : p.icf.isCall n = true → r ∈ p.icf.retSites n → Step p (stk, n) (stk, r)

/-- Consecutive configurations are steps. -/
def Steps (p : Prog) : List (List Nat × Nat) → Prop
  | [] => True
  | [_] => True
  | a :: b :: l => Step p a b ∧ Steps p (b :: l)

/-- An execution: configurations from an entry point on, and for each position the memory location that is written there, if any
(`wr`), and the value that allocated a location (`site`). -/
structure Run (p : Prog) where
  path : List (List Nat × Nat)
  wr : Nat → Option Nat
  site : Nat → Nat
  steps : Steps p path
  start : ∃ sp ∈ p.entries, path.head? = some ([], sp)

/-- The statement is one that writes memory through the pointer: a store of something other than a vtable, or a memory
intrinsic. -/
def Writes (p : Prog) (n ptr : Nat) : Prop := p.inst n = .store ptr false ∨ p.inst n = .mem ptr

/-- The alias sets describe the execution: a statement that writes a location has a pointer operand, whose alias set contains
the allocation of the location and the pointer operands of all other statements that write it. -/
structure Run.Described {p : Prog} (r : Run p) : Prop where
  site : ∀ i a c, r.wr i = some a → r.path[i]? = some c → ∃ ptr, Writes p c.2 ptr ∧ r.site a ∈ p.alias ptr
  meet : ∀ i j a c d x y, r.wr i = some a → r.wr j = some a → r.path[i]? = some c → r.path[j]? = some d →
    Writes p c.2 x → Writes p d.2 y → x ∈ p.alias y

/-- The statement can be executed. -/
def Reached (p : Prog) (n : Nat) : Prop := ∃ r : Run p, ∃ c ∈ r.path, c.2 = n

/-- From `n` the execution gets to `n'` in the same invocation of the function, in at least one step. -/
inductive Within (p : Prog) : Nat → Nat → Prop
  | succ {n n'} : p.icf.isCall n = false → n' ∈ p.icf.succs n → Within p n n'
  | past {n n'} : p.icf.isCall n = true → n' ∈ p.icf.retSites n → Within p n n'
  | trans {a b c} : Within p a b → Within p b c → Within p a c

/-- The program is well-formed: facts about the control flow, the zero value is a constant, memory intrinsics are calls and stores
are not, calls have at least as many arguments as the callee has parameters, and the zero value is no operand and no parameter. -/
structure Prog.WF : Prop where
  icf : p.icf.WFV
  seeds : ∀ sp ∈ p.entries, sp ∈ p.icf.starts (p.icf.funOf sp)
  zero : p.ir.isConst p.ir.zero = true
  store : ∀ n ptr v, p.inst n = .store ptr v → p.icf.isCall n = false
  mem : ∀ n d, p.inst n = .mem d → p.icf.isCall n = true ∧ ∀ f ∈ p.icf.callees n, (p.callee f).decl = true
  args : ∀ n f, f ∈ p.icf.callees n → (p.callee f).decl = false → (p.callee f).params.length ≤ (p.args n).length
  noArg : ∀ n, p.ir.zero ∉ p.args n
  noRet : ∀ e, p.retVal e ≠ some p.ir.zero
  noParam : ∀ f, p.ir.zero ∉ (p.callee f).params ∧ p.ir.zero ∉ (p.callee f).vaLists

end Phasar.Const
