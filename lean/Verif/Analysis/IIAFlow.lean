import Verif.IDE.Props
import Verif.IDE.Table
import Verif.Analysis.IIA
import Verif.Store.LLVMFlow
/-!
# The instruction interaction analysis: flow functions, edge functions, seeds

Model of `IDEInstInteractionAnalysisT` (`include/phasar/PhasarLLVM/DataFlow/IfdsIde/Problems/IDEInstInteractionAnalysis.h`) as a
problem for the IDE solver of `Verif.IDE`, and independent descriptions of how labels come to values: chains of statements that
hand labels on (`Prov`), and executions that keep the labels of all values at once (`Exec`).
Label sets and the edge functions themselves are in `Verif.Analysis.IIA`.  Line numbers without a file are those of that header.
-/
set_option linter.unusedSectionVars false
namespace Phasar.IIA
open Phasar JoinLat IDE

/-- The data-flow facts (`IDEIIAFlowFact`, `:102-155`, a wrapper around `const llvm::Value *`): the zero value, instructions,
parameters, global variables, other constants that are not `ConstantData` (functions, constant expressions), and `ConstantData`.
Instructions and parameters are numbered throughout the program.  Simplification: a fact is its base value.  `FieldDesc` (`:109`)
is always empty here: every fact below is built by the constructor that ignores fields (`:116`). -/
inductive Val where
  | zero
  | inst (n : Nat)
  | arg (k : Nat)
  | global (k : Nat)
  | other (k : Nat)
  | data (k : Nat)
deriving DecidableEq, Repr

/-- `llvm::isa<llvm::Constant>`; the zero value is a global variable (`LLVMZeroValue.h:35`). -/
def Val.isConst : Val → Bool
  | .inst _ | .arg _ => false
  | _ => true

/-- `llvm::isa<llvm::ConstantData>`. -/
def Val.isData : Val → Bool
  | .data _ => true
  | _ => false

/-- What the analysis distinguishes: allocas, loads, stores, conditional branches with the instructions of the successor blocks
(`instructionsWithoutDebug`), calls with their arguments, returns, and all others with their operands. -/
inductive Inst where
  | alloca
  | load (ptr : Val)
  | store (v ptr : Val)
  | br (cond : Val) (insts : List Nat)
  | call (args : List Val)
  | ret (v : Option Val)
  | op (ops : List Val)

/-- The program, the alias information and the user's labels.  `pts n` is `getReachableAllocationSites` of the pointer operand of
the load or store `n` (`:336-337, 361-363`), and `isInReachableAllocationSites` (`:687-688, 746-748`) is membership in it
(simplification: the two queries of the alias information agree).  `gen` is `bvSetFrom(invoke_or_default(EdgeFactGen, ·))`
for instructions, `genG` for global variables.  `heap` is `isHeapAllocatingFunction`.  `sretCall n` is `hasStructRetAttr` of the
call, `sretFn f` the attribute of the first parameter. -/
structure Prog where
  icf : ICFG Nat Nat
  inst : Nat → Inst
  params : Nat → List Nat
  decl : Nat → Bool
  heap : Nat → Bool
  voidRet : Nat → Bool
  sretFn : Nat → Bool
  sretCall : Nat → Bool
  pts : Nat → List Val
  gen : Nat → Nat
  genG : Nat → Nat
  globals : List Nat
  entries : List Nat
  /-- The template arguments (`:209`). -/
  syntactic : Bool
  indirect : Bool

namespace Prog
variable (p : Prog)

/-- `User::operands()` of an instruction that no earlier case has taken (`:463`).  The labels of branches are not facts. -/
def operands (n : Nat) : List Val :=
  match p.inst n with
  | .op ops => ops
  | .br c _ => [c]
  | .call as => as
  | .ret (some v) => [v]
  | .load ptr => [ptr]
  | .store v ptr => [v, ptr]
  | _ => []

/-- `CallBase::args()`. -/
def args (n : Nat) : List Val :=
  match p.inst n with
  | .call as => as
  | _ => []

/-- `ReturnInst::getReturnValue()`; `none` also for other exit statements. -/
def retVal (e : Nat) : Option Val :=
  match p.inst e with
  | .ret v => v
  | _ => none

/-- The function as callee of the mapping functions.  Simplification: no variable-argument lists. -/
def callee (f : Nat) : FlowFn.Callee Val where
  decl := p.decl f
  params := (p.params f).map .arg
  sret := p.sretFn f
  vaLists := []

/-- The zero value and `isa<Constant>`. -/
def ir : FlowFn.IR Val := { zero := .zero, isConst := Val.isConst }

/-- The lambda for stores (`:360-384` with points-to information, `:414-439` without: `ts` is empty). -/
def storeFlow (v ptr : Val) (ts : List Val) : FlowFn.FF Val := fun s =>
  if ptr = s ∨ s ∈ ts then []
  else
    let facts := FSet.ofList [s]
    let facts := if v = s then (ptr :: ts).foldl FSet.insert facts else facts
    if v.isData ∧ s = .zero then (ptr :: ts).foldl FSet.insert facts else facts

/-- The lambda for all other instructions (`:453-481`). -/
def otherFlow (n : Nat) : FlowFn.FF Val := fun s =>
  if s = .zero then FSet.ofList [s]
  else FSet.insert ((p.operands n).foldl (fun r o => if o = s then FSet.insert r (.inst n) else r) []) s

/-- The lambda for conditional branches with `EnableIndirectTaints` (`:298-310`). -/
def brFlow (n : Nat) (c : Val) (is : List Nat) : FlowFn.FF Val := fun s =>
  if s = c then (Val.inst n :: is.map .inst).foldl FSet.insert (FSet.ofList [s]) else FSet.ofList [s]

/-- `getNormalFlowFunction` (`:262-482`). -/
def normalFlow (n : Nat) : FlowFn.FF Val :=
  match p.inst n with
  | .alloca => FlowFn.generateFlow (.inst n) .zero
  | .br c is => if p.indirect then brFlow n c is else p.otherFlow n
  | .load ptr =>
    if p.syntactic then FlowFn.generateFlow (.inst n) ptr
    else FlowFn.generateFlowIf (.inst n) (fun s => decide (s = ptr ∨ s ∈ p.pts n))
  | .store v ptr => storeFlow v ptr (if p.syntactic then [] else p.pts n)
  | _ => p.otherFlow n

/-- `getCallFlowFunction` (`:484-520`).  `DestFun->getArg(0)` exists if the call has a struct-return argument (simplification:
otherwise nothing is generated). -/
def callFlow (n f : Nat) : FlowFn.FF Val :=
  if p.heap f then FlowFn.killAllFlows
  else if p.decl f then FlowFn.killAllFlows
  else
    let m := FlowFn.mapFactsToCallee ir (p.args n) (p.callee f)
      (fun a s => decide (a = s) && !(p.sretCall n && decide ((p.args n).head? = some a))) true true
    match p.sretCall n, p.params f with
    | true, q :: _ => FlowFn.unionFlows m (FlowFn.generateFlowAndKillAllOthers (.arg q) .zero)
    | _, _ => m

/-- `getRetFlowFunction` (`:522-545`).  The case without a call site does not occur: unbalanced returns are not followed. -/
def retFlow (c f e : Nat) : FlowFn.FF Val :=
  FlowFn.mapFactsToCaller ir (.inst c) (p.args c) (p.callee f) (p.retVal e) (fun a s => decide (a = s))
    (fun rv s => decide (s = rv) || (decide (s = .zero) && rv.isData)) true true

/-- `Callees.size() == 1` and the callee allocates memory (`:552-554, 889-892`). -/
def heapCall (n : Nat) : Bool :=
  match p.icf.callees n with
  | [g] => p.heap g
  | _ => false

/-- `OnlyDecls` (`:578-583`). -/
def onlyDecls (n : Nat) : Bool := (p.icf.callees n).all p.decl

/-- `AllVoidRetTys` (`:579-586`). -/
def allVoid (n : Nat) : Bool := (p.icf.callees n).all p.voidRet

/-- `getCallToRetFlowFunction` (`:547-618`). -/
def ctrFlow (n : Nat) : FlowFn.FF Val :=
  if p.heapCall n then FlowFn.generateFlow (.inst n) .zero
  else fun s =>
    if p.onlyDecls n then
      if !p.allVoid n && decide (s = .zero) then FSet.ofList [s, .inst n] else FSet.ofList [s]
    else if s.isConst then []
    else FSet.ofList [s]

/-- `getStrongUpdateStoreEF` (`:665-761`); `none` is `report_fatal_error`. -/
def storeEdge (n : Nat) (v ptr : Val) (d d' : Val) : Option EF :=
  if (d = v ∨ (d = .zero ∧ v.isConst)) ∧ (d' = ptr ∨ d' ∈ p.pts n) then
    if d = .zero then some (.kill (.set (p.gen n))) else some (.add (.set (p.gen n)))
  else if p.syntactic ∧ d = d' ∧ d = ptr then some (.kill (.set (p.gen n)))
  else if ¬ p.syntactic ∧ d = d' ∧ (ptr = d ∨ d ∈ p.pts n) then some (.kill (.set 0))
  else if d = d' then some .id
  else none

/-- `getNormalEdgeFunction` (`:763-813`); `none` is `report_fatal_error`. -/
def normalEdge (n : Nat) (d d' : Val) : Option EF :=
  if d' = .zero then some .id
  else match p.inst n with
    | .store v ptr => p.storeEdge n v ptr d d'
    | _ =>
      if d = d' then some .id
      else if .inst n ≠ d ∧ .inst n = d' then
        if d = .zero then some (.kill (.set (p.gen n))) else some (.add (.set (p.gen n)))
      else some .id

/-- `getCallEdgeFunction` (`:815-847`): the parameters with the attribute are looked for among the *arguments* of the call.
Simplification: only the first argument can have the attribute. -/
def callEdge (n : Nat) (d d' : Val) : EF :=
  if d = .zero ∧ p.sretCall n ∧ (p.args n).head? = some d' then .kill (.set 0) else .id

/-- `getReturnEdgeFunction` (`:849-878`). -/
def retEdge (c e : Nat) (d d' : Val) : EF :=
  if d = .zero ∧ d' = .inst c then
    match p.retVal e with
    | some rv => if rv.isData then .kill (.set (p.gen e)) else .id
    | none => .id
  else .id

/-- `getCallToRetEdgeFunction` (`:880-932`). -/
def ctrEdge (n : Nat) (d d' : Val) : EF :=
  if p.heapCall n ∧ d = .zero ∧ d' = .inst n then .kill (.set (p.gen n))
  else if d ∈ p.args n ∧ d = d' then .add (.set (p.gen n))
  else .id

/-- `initialSeeds` (`:626-652`). -/
def seeds : List (Nat × List (Val × Labels)) :=
  p.entries.flatMap fun f => (p.icf.starts f).map fun sp =>
    (sp, (Val.zero, Labels.bottom) :: ((p.params f).map fun k => (Val.arg k, Labels.set 0)) ++
      p.globals.map fun g => (Val.global g, Labels.set (p.genG g)))

/-- The edge functions with the operations of `Verif.Analysis.IIA`.  A `report_fatal_error` is all-bottom here; `C37_extend`,
`C37_combine_total` and `C74_defined` show that none is ever reached. -/
def alg : EdgeAlg Labels EF where
  ap := EF.ap
  extend := fun f g => (f.extend g).getD .allBottom
  combine := fun f g => (f.combine g).getD .allBottom
  eqE := fun f g => decide (f = g)
  idE := .id
  allTop := .allTop

/-- The problem as written: flow functions, edge functions, seeds.  There are no summaries (`:620-624, 934-939`). -/
def plain : Problem Nat Val Nat Labels EF where
  icf := p.icf
  alg := alg
  normalFlow := fun n _ => p.normalFlow n
  callFlow := p.callFlow
  retFlow := fun c f e _ => p.retFlow c f e
  ctrFlow := fun n _ => p.ctrFlow n
  summaryFlow := fun _ _ => none
  normalEdge := fun n d _ d' => (p.normalEdge n d d').getD .allBottom
  callEdge := fun n d _ d' => p.callEdge n d d'
  retEdge := fun c _ e d _ d' => p.retEdge c e d d'
  ctrEdge := fun n d _ d' => p.ctrEdge n d d'
  sumEdge := fun _ _ _ _ => .id
  zero := .zero
  seeds := p.seeds
  followReturnsPastSeeds := false

/-- The problem as the solver sees it: `autoAddZero` is on by default (`IFDSIDESolverConfig.h:66-67`); without it zero would not pass
calls of functions with a body, because it is a `Constant` (`:610-612`). -/
def problem : Problem Nat Val Nat Labels EF := autoZero p.plain

/-! ## How labels come to values -/

/-- The values a statement overwrites: the pointer operand of a store and what it may point to. -/
def targets (n : Nat) : List Val :=
  match p.inst n with
  | .store _ ptr => ptr :: (if p.syntactic then [] else p.pts n)
  | _ => []

/-- The values whose labels an instruction hands on to itself. -/
def reads (n : Nat) : List Val :=
  match p.inst n with
  | .alloca => []
  | .store _ _ => []
  | .load ptr => ptr :: (if p.syntactic then [] else p.pts n)
  | _ => p.operands n

/-- The labels a value gets although the statement only leaves it alone: without points-to information in the flow functions,
a stored value that is itself possibly written gets the labels of the store. -/
def extra (n : Nat) (x : Val) : Nat :=
  match p.inst n with
  | .store v ptr => if x = v ∧ (x = ptr ∨ x ∈ p.pts n) then p.gen n else 0
  | _ => 0

/-- At the statement `n`, which is not a call, `y` takes over the labels of `x` and gets the labels `s` in addition. -/
inductive Pass (n : Nat) : Val → Val → Nat → Prop
  /-- What is not overwritten stays. -/
  | keep {x} : x ∉ p.targets n → Pass n x x (p.extra n x)
  /-- An instruction takes over the labels of what it reads. -/
  | read {x} : x ∈ p.reads n → x ≠ .inst n → Pass n x (.inst n) (p.gen n)
  /-- What is overwritten takes over the labels of the stored value. -/
  | write {v ptr y} : p.inst n = .store v ptr → v ∉ p.targets n → y ∈ p.targets n → Pass n v y (p.gen n)
  /-- With indirect taints, the instructions of the successor blocks take over the labels of the condition. -/
  | branch {c is k} : p.indirect = true → p.inst n = .br c is → k ∈ is → k ≠ n → Val.inst k ≠ c → Pass n c (.inst k) 0

/-- At the statement `n`, which is not a call, `y` starts with the labels `s`. -/
inductive Fresh (n : Nat) : Val → Nat → Prop
  | alloca : p.inst n = .alloca → Fresh n (.inst n) (p.gen n)
  | store {v ptr y} : p.inst n = .store v ptr → v.isData = true → y ∈ p.targets n → Fresh n y (p.gen n)

/-- Positions with their pending calls that control flow reaches from an entry point; calls may also be stepped over. -/
inductive At : List Nat → Nat → Prop
  | start {f sp} : f ∈ p.entries → sp ∈ p.icf.starts f → At [] sp
  | normal {stk n n'} : At stk n → p.icf.isCall n = false → n' ∈ p.icf.succs n → At stk n'
  | enter {stk n g sp} : At stk n → p.icf.isCall n = true → g ∈ p.icf.callees n → sp ∈ p.icf.starts g → At (n :: stk) sp
  | ret {stk c n r} : At (c :: stk) n → p.icf.isCall n = false → p.icf.isExit n = true → r ∈ p.icf.retSites c → At stk r
  | over {stk n r} : At stk n → p.icf.isCall n = true → r ∈ p.icf.retSites n → At stk r

/-- A function that is entered: it has a body and is not an allocator. -/
def Entered (g : Nat) : Prop := p.heap g = false ∧ p.decl g = false

/-- A call whose result comes from functions of which nothing is known. -/
def Opaque (n : Nat) : Prop := p.heapCall n = false ∧ p.onlyDecls n = true ∧ p.allVoid n = false

/-- `Prov stk n x v`: there is a chain of statements, along a path with matching calls and returns, that brings the labels `v`
to `x` at `n`.  `bottom` stands for unknown labels. -/
inductive Prov : List Nat → Nat → Val → Labels → Prop
  | param {f sp k} : f ∈ p.entries → sp ∈ p.icf.starts f → k ∈ p.params f → Prov [] sp (.arg k) (.set 0)
  | glob {f sp g} : f ∈ p.entries → sp ∈ p.icf.starts f → g ∈ p.globals → Prov [] sp (.global g) (.set (p.genG g))
  | fresh {stk n n' y s} : p.At stk n → p.icf.isCall n = false → n' ∈ p.icf.succs n → p.Fresh n y s → Prov stk n' y (.set s)
  | pass {stk n n' x y v s} : Prov stk n x v → p.icf.isCall n = false → n' ∈ p.icf.succs n → p.Pass n x y s →
      Prov stk n' y (joinImpl v (.set s))
  /-- Arguments. -/
  | toParam {stk n g sp x v k} {i : Nat} : Prov stk n x v → p.icf.isCall n = true → g ∈ p.icf.callees n → sp ∈ p.icf.starts g →
      p.Entered g → (p.params g)[i]? = some k → (p.args n)[i]? = some x → ¬ (p.sretFn g = true ∧ i = 0) →
      ¬ (p.sretCall n = true ∧ (p.args n).head? = some x) → Prov (n :: stk) sp (.arg k) v
  /-- Global variables and other constants. -/
  | toGlob {stk n g sp x v} : Prov stk n x v → p.icf.isCall n = true → g ∈ p.icf.callees n → sp ∈ p.icf.starts g →
      p.Entered g → x.isConst = true → Prov (n :: stk) sp x v
  /-- Memory for returned structures. -/
  | toSRet {stk n g sp k ks} : p.At stk n → p.icf.isCall n = true → g ∈ p.icf.callees n → sp ∈ p.icf.starts g →
      p.Entered g → p.sretCall n = true → p.params g = k :: ks → (p.args n).head? ≠ some (.arg k) →
      Prov (n :: stk) sp (.arg k) .bottom
  /-- The same if the argument of the call is the parameter itself (a recursive call that passes it on). -/
  | toSRetSame {stk n g sp k ks} : p.At stk n → p.icf.isCall n = true → g ∈ p.icf.callees n → sp ∈ p.icf.starts g →
      p.Entered g → p.sretCall n = true → p.params g = k :: ks → (p.args n).head? = some (.arg k) →
      Prov (n :: stk) sp (.arg k) (.set 0)
  /-- The returned value. -/
  | fromRet {stk c e r x v} : Prov (c :: stk) e x v → p.icf.isCall e = false → p.icf.isExit e = true → r ∈ p.icf.retSites c →
      p.retVal e = some x → Prov stk r (.inst c) v
  | fromConst {stk c e r rv} : p.At (c :: stk) e → p.icf.isCall e = false → p.icf.isExit e = true → r ∈ p.icf.retSites c →
      p.retVal e = some rv → rv.isData = true → Prov stk r (.inst c) (.set (p.gen e))
  /-- Parameters and their arguments. -/
  | fromParam {stk c e r k a v} {i : Nat} : Prov (c :: stk) e (.arg k) v → p.icf.isCall e = false → p.icf.isExit e = true →
      r ∈ p.icf.retSites c → (p.params (p.icf.funOf e))[i]? = some k → (p.args c)[i]? = some a → Prov stk r a v
  | fromGlob {stk c e r x v} : Prov (c :: stk) e x v → p.icf.isCall e = false → p.icf.isExit e = true → r ∈ p.icf.retSites c →
      x.isConst = true → Prov stk r x v
  /-- Past the call; arguments get the labels of the call. -/
  | over {stk n r x v} : Prov stk n x v → p.icf.isCall n = true → r ∈ p.icf.retSites n →
      (p.heapCall n = true ∨ p.onlyDecls n = true ∨ x.isConst = false) →
      Prov stk r x (if x ∈ p.args n then joinImpl v (.set (p.gen n)) else v)
  | heapNew {stk n r} : p.At stk n → p.icf.isCall n = true → r ∈ p.icf.retSites n → p.heapCall n = true →
      Prov stk r (.inst n) (.set (p.gen n))
  | unknown {stk n r} : p.At stk n → p.icf.isCall n = true → r ∈ p.icf.retSites n → p.Opaque n → Prov stk r (.inst n) .bottom

/-- What is assumed about the program: a consistent control-flow graph, and the zero value occurs nowhere in the program. -/
structure WF : Prop where
  icf : p.icf.WFV
  uniq : p.icf.UniqueStart
  args : ∀ n, Val.zero ∉ p.args n
  pts : ∀ n, Val.zero ∉ p.pts n
  load : ∀ n ptr, p.inst n = .load ptr → ptr ≠ .zero
  store : ∀ n v ptr, p.inst n = .store v ptr → v ≠ .zero ∧ ptr ≠ .zero
  br : ∀ n c is, p.inst n = .br c is → c ≠ .zero
  ret : ∀ n v, p.retVal n = some v → v ≠ .zero

/-- `U` contains the values whose labels are unknown from the start (results of opaque calls, memory for returned structures)
and what gets their labels unchanged, and nothing that gets labels from elsewhere.  If there are neither, the empty set will do.
(The join of the identity with a constant edge function is the constant one, `C37_combine_false`; this keeps the two apart.) -/
structure Sep (U : Val → Prop) : Prop where
  unknown : ∀ n, p.icf.isCall n = true → p.Opaque n → U (.inst n)
  heap : ∀ n, p.icf.isCall n = true → p.heapCall n = true → ¬ U (.inst n)
  alloca : ∀ n, p.inst n = .alloca → ¬ U (.inst n)
  read : ∀ n x, p.icf.isCall n = false → x ∈ p.reads n → U (.inst n) → U x
  write : ∀ n v ptr y, p.inst n = .store v ptr → y ∈ p.targets n → U y → U v ∧ v.isData = false
  branch : ∀ n c is k, p.indirect = true → p.inst n = .br c is → k ∈ is → k ≠ n → (U c ↔ U (.inst k))
  param : ∀ n g (i : Nat) k x, p.icf.isCall n = true → g ∈ p.icf.callees n → (p.params g)[i]? = some k →
    (p.args n)[i]? = some x → (U x ↔ U (.arg k))
  sret : ∀ n g k ks, p.icf.isCall n = true → g ∈ p.icf.callees n → p.Entered g → p.sretCall n = true → p.params g = k :: ks →
    ((p.args n).head? ≠ some (.arg k) ↔ U (.arg k))
  ret : ∀ c e rv, p.icf.isCall c = true → p.icf.funOf e ∈ p.icf.callees c → p.icf.isExit e = true → p.retVal e = some rv →
    (U rv ↔ U (.inst c)) ∧ (rv.isData = true → ¬ U (.inst c))

end Prog
end Phasar.IIA
