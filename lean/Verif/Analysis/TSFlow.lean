import Verif.Analysis.TypeState
import Verif.IDE.Spec
import Verif.Store.LLVMFlow
/-!
# The typestate analysis as a tabulation problem

Flow functions, alias caches, edge functions, seeds and report of
`lib/PhasarLLVM/DataFlow/IfdsIde/Problems/IDETypeStateAnalysis.cpp` and
`include/phasar/PhasarLLVM/DataFlow/IfdsIde/Problems/IDETypeStateAnalysis.h`, on programs given as tables of instructions, as an
input of the solver model (`Verif/IDE/Model.lean`).  The edge functions themselves are in `Verif/Analysis/TypeState.lean`, what
programs do is in `Verif/Analysis/TSSem.lean`.
-/
namespace Phasar.TypeState
open Phasar IDE

/-- Facts `const llvm::Value *`: the zero value (`LLVMZeroValue.h:53`) and the other values by number; the result of the
instruction `n` is `node n`. -/
inductive Val where
  | zero
  | node (k : Nat)
deriving DecidableEq, Repr

/-- `llvm::Type` as far as `hasMatchingType` looks at it (`IDETypeStateAnalysis.cpp:305-357`): opaque pointers, typed pointers,
structs with a name, and all others by the text they print. -/
inductive Ty where
  | opaque
  | ptr (elem : Ty)
  | struct (name : String)
  | other (text : String)
deriving DecidableEq, Repr

/-- `raw_ostream << llvm::Type` (`IDETypeStateAnalysis.cpp:310-313`).  Simplification: struct names that need quotes are printed
without them. -/
def Ty.text : Ty → String
  | .opaque => "ptr"
  | .ptr e => e.text ++ "*"
  | .struct n => "%" ++ n
  | .other t => t

/-- `StringRef::contains` (`IDETypeStateAnalysis.h:517`). -/
def hasSub (text sub : String) : Bool := (List.range (text.length + 1)).any fun i => sub.toList.isPrefixOf (text.toList.drop i)

/-- The instructions as the analysis distinguishes them (`IDETypeStateAnalysis.cpp:39-96`).  Operands are values by number,
constants among them. -/
inductive Inst where
  | alloca (t : Ty)
  | load (ptr : Nat)
  | store (v ptr : Nat)
  | gep (ptr : Nat)
  | call (args : List Nat)
  | ret (v : Option Nat)
  | other
deriving DecidableEq, Repr

/-- The module, the ICFG, the alias information and the type state description as far as the analysis looks at them.
`ty`: `Value::getType()`; `users`: the instructions in `Value::users()`; `isGlobal`: the value is an `llvm::Constant`; `name`: the
demangled name of a function; `vaLists`: the allocas of type `[n x %struct.__va_list_tag]` in the function; `alias`: the answer of
`LLVMAliasInfoRef::getAliasSet(V)`; `entries`: the start points of the entry functions; `typeName`: `getTypeNameOfInterest()`. -/
structure Prog (S : Type) where
  inst : Nat → Inst
  icf : ICFG Nat Nat
  ty : Nat → Ty
  users : Nat → List Nat
  isGlobal : Nat → Bool
  params : Nat → List Nat
  sret : Nat → Bool
  isDecl : Nat → Bool
  isVarArg : Nat → Bool
  vaLists : Nat → List Nat
  name : Nat → String
  alias : Nat → List Nat
  entries : List Nat
  typeName : String
  desc : Desc S
  isAPI : String → Bool
  error : S

namespace Prog
variable {S : Type} [DecidableEq S] (p : Prog S)

/-- `hasMatchingTypeName` (`IDETypeStateAnalysis.cpp:305-315`).  Simplification: struct types without a name, for which
`StructType::getName` fails an assertion, are types with the text `""` here (the result of `getName` without assertions). -/
def matchName : Ty → Bool
  | .struct n => hasSub n p.typeName
  | t => hasSub t.text p.typeName

/-- The test for pointer types in the special cases of `hasMatchingType` (`IDETypeStateAnalysis.cpp:325-356`). -/
def matchPtr : Ty → Bool
  | .opaque => true
  | .ptr e => p.matchName e
  | _ => false

/-- The general case of `hasMatchingType` (`IDETypeStateAnalysis.cpp:318-324`). -/
def matchTyped : Ty → Bool
  | .ptr e => p.matchName e
  | _ => false

/-- `hasMatchingType` (`IDETypeStateAnalysis.cpp:317-357`). -/
def matching (k : Nat) : Bool :=
  if p.matchTyped (p.ty k) then true
  else match p.inst k with
    | .alloca t => p.matchPtr t
    | .load _ => p.matchPtr (p.ty k)
    | .store v _ => p.matchPtr (p.ty v)
    | _ => false

/-! ### Aliases and relevant allocas -/

/-- What one alias contributes to the relevant allocas (`IDETypeStateAnalysis.cpp:237-257`). -/
def allocasOf (a : Nat) : List Nat :=
  match p.inst a with
  | .load ptr => if p.matching a then [ptr] else []
  | _ => (p.users a).filterMap fun u => match p.inst u with
    | .store _ ptr => if p.matching u then some ptr else none
    | _ => none

/-- The loop of `getRelevantAllocas` over the alias set (`IDETypeStateAnalysis.cpp:235-259`). -/
def relOf (as : List Nat) : List Nat := as.flatMap p.allocasOf

/-- The members `AliasCache` and `RelevantAllocaCache` (`IDETypeStateAnalysis.h:135-138`), newest entries first. -/
structure Cache where
  alias : List (Nat × List Nat)
  rel : List (Nat × List Nat)
deriving DecidableEq, Repr

/-- `getWMAliasSet` (`IDETypeStateAnalysis.cpp:265-278`). -/
def getWMAliasSet (c : Cache) (v : Nat) : List Nat × Cache :=
  match c.alias.lookup v with
  | some s => (s, c)
  | none =>
    let pts := p.alias v
    (pts, { c with alias := pts.foldl (fun m a => if p.matching a then (a, pts) :: m else m) c.alias })

/-- `getRelevantAllocas` (`IDETypeStateAnalysis.cpp:228-263`). -/
def getRelevantAllocas (c : Cache) (v : Nat) : List Nat × Cache :=
  match c.rel.lookup v with
  | some r => (r, c)
  | none =>
    let as := p.getWMAliasSet c v
    let r := p.relOf as.1
    (r, { as.2 with rel := as.1.foldl (fun m a => (a, r) :: m) as.2.rel })

/-- `getWMAliasesAndAllocas` (`IDETypeStateAnalysis.cpp:280-287`). -/
def getWMAliasesAndAllocas (c : Cache) (v : Nat) : List Nat × Cache :=
  let r := p.getRelevantAllocas c v
  let a := p.getWMAliasSet r.2 v
  (a.1 ++ r.1, a.2)

/-- `getRelevantAllocas` without caches, which is what the flow functions below use; see `C64_caches_partial`. -/
def relAllocas (v : Nat) : List Nat := p.relOf (p.alias v)

/-- `getWMAliasesAndAllocas` without caches. -/
def aliasesAndAllocas (v : Nat) : List Nat := p.alias v ++ p.relAllocas v

/-! ### Flow functions -/

/-- `llvm::isa<llvm::Constant>`; the zero value is a global variable (`LLVMZeroValue.h:44-53`). -/
def ir : FlowFn.IR Val where
  zero := .zero
  isConst := fun v => match v with
    | .zero => true
    | .node k => p.isGlobal k

/-- The called function as an argument of `mapFactsToCallee`. -/
def callee (f : Nat) : FlowFn.Callee Val where
  decl := p.isDecl f
  params := (p.params f).map .node
  sret := p.sret f
  vaLists := (p.vaLists f).map .node

/-- `CallBase::args()`. -/
def args (n : Nat) : List Nat :=
  match p.inst n with
  | .call as => as
  | _ => []

/-- The flow function of a store of matching type (`IDETypeStateAnalysis.cpp:70-93`); the local aliases of
`getLocalAliasesAndAllocas` (`:289-303`) are always empty. -/
def storeFlow (v ptr : Nat) : FlowFn.FF Val := fun s =>
  if s = .node ptr then []
  else if s = .node v then FSet.ofList ((p.relAllocas ptr ++ [v]).map .node)
  else FSet.ofList [s]

/-- `getNormalFlowFunction` (`IDETypeStateAnalysis.cpp:39-96`). -/
def normalFlow (n : Nat) : FlowFn.FF Val :=
  match p.inst n with
  | .alloca _ => if p.matching n then FlowFn.generateFlow (.node n) .zero else FlowFn.identityFlow
  | .load ptr => if p.matching n then FlowFn.transferFlow (.node n) (.node ptr) else FlowFn.identityFlow
  | .gep ptr => if p.matching ptr then FlowFn.lambdaFlow (fun s => FSet.ofList [s]) else FlowFn.identityFlow
  | .store v ptr => if p.matching n then p.storeFlow v ptr else FlowFn.identityFlow
  | _ => FlowFn.identityFlow

/-- `getCallFlowFunction` (`IDETypeStateAnalysis.cpp:98-111`). -/
def callFlow (n f : Nat) : FlowFn.FF Val :=
  if p.isAPI (p.name f) then FlowFn.killAllFlows
  else FlowFn.mapFactsToCallee p.ir ((p.args n).map .node) (p.callee f) (fun a s => decide (a = s)) true true

/-- `ReturnInst::getReturnValue()` of the exit statement; `none` also for other exit statements. -/
def retVal (e : Nat) : Option Nat :=
  match p.inst e with
  | .ret v => v
  | _ => none

/-- The facts collected from the variable arguments, the parameters and the returned value (`IDETypeStateAnalysis.cpp:146-165`);
`va` is `AllocVarArg`. -/
def retDirect (c f e : Nat) (va : Option Nat) (k : Nat) : List Nat :=
  (if va = some k then (p.args c).drop (p.params f).length else []) ++
  ((p.params f).zip (p.args c)).filterMap (fun q => if q.1 = k then some q.2 else none) ++
  (if p.retVal e = some k then [c] else [])

/-- `AllocVarArg` (`IDETypeStateAnalysis.cpp:124-145`): `some none` for functions without variable arguments, otherwise the last
alloca of a `va_list`; the outer `none` is the use of the uninitialised variable when there is none. -/
def allocVarArg (f : Nat) : Option (Option Nat) :=
  if p.isVarArg f && !p.isDecl f then
    match (p.vaLists f).getLast? with
    | some a => some (some a)
    | none => none
  else some none

/-- The flow function of `getRetFlowFunction` (`IDETypeStateAnalysis.cpp:113-179`); `none`: undefined behaviour. -/
def retFlow? (c f e : Nat) (s : Val) : Option (List Val) :=
  match s with
  | .zero => some [.zero]
  | .node k => (p.allocVarArg f).map fun va =>
    let res := p.retDirect c f e va k
    FSet.ofList ((res ++ res.flatMap p.relAllocas).map .node)

/-- `getRetFlowFunction` where it is defined. -/
def retFlow (c f e : Nat) : FlowFn.FF Val := fun s => (p.retFlow? c f e s).getD []

/-- The loop of `getCallToRetFlowFunction` over the callees (`IDETypeStateAnalysis.cpp:181-220`); `decl` is
`DeclarationOnlyCalleeFound`. -/
def ctrLoop (n : Nat) : Bool → List Nat → FlowFn.FF Val
  | decl, [] => if decl then FlowFn.identityFlow else FlowFn.killFlowIf p.ir.isConst
  | decl, f :: fs =>
    if p.desc.isFactory (p.name f) then FlowFn.generateFlow (.node n) .zero
    else if !p.isAPI (p.name f) && !p.isDecl f then
      match (p.args n).find? p.matching with
      | some a => FlowFn.killManyFlows ((p.aliasesAndAllocas a).map .node)
      | none => ctrLoop n (decl || p.isDecl f) fs
    else ctrLoop n (decl || p.isDecl f) fs

/-- `getCallToRetFlowFunction` (`IDETypeStateAnalysis.cpp:181-220`). -/
def ctrFlow (n : Nat) : FlowFn.FF Val := p.ctrLoop n false (p.icf.callees n)

/-! ### Edge functions and the problem -/

/-- `getNormalEdgeFunction` (`IDETypeStateAnalysis.h:404-415`). -/
def normalEdge (n : Nat) (d d' : Val) : EF S :=
  match p.inst n with
  | .alloca _ => TypeState.normalEdge p.desc (p.matching n && decide (d = .zero) && decide (d' = .node n))
  | _ => .id

/-- Source and target fact are the same and among the aliases and allocas of the argument `i` (`IDETypeStateAnalysis.h:453-458`).
Simplification: `getArgOperand` of an index that is too large is undefined behaviour, here nothing is an alias. -/
def consumed (n : Nat) (d d' : Val) (i : Nat) : Bool :=
  decide (d = d') && match (p.args n)[i]? with
    | some a => ((p.aliasesAndAllocas a).map Val.node).contains d
    | none => false

/-- `getCallToRetEdgeFunction` (`IDETypeStateAnalysis.h:431-464`); a state outside of the table does not occur for the
descriptions of `Regular` (`TSAlg.lean`), so that the default value does not matter. -/
def ctrEdge (n : Nat) (d d' : Val) : EF S :=
  (callToRetEdge p.desc n (decide (d = .zero) && decide (d' = .node n)) (p.consumed n d d') ((p.icf.callees n).map p.name)).getD
    .allBottom

/-- The edge functions with the semiring operations of the solver; `EF.ap` and `EF.compose` have no result only where the C++ code
has undefined behaviour, which does not happen for the descriptions of `Regular` (`TSAlg.lean`). -/
def alg (D : Desc S) : EdgeAlg S (EF S) where
  ap := fun f x => (f.ap D x).getD D.bottom
  extend := fun f g => (f.compose D g).getD .allBottom
  combine := EF.joinWith D
  eqE := fun f g => decide (f = g)
  idE := .id
  allTop := .allTop

/-- The tabulation problem `IDETypeStateAnalysis`; the seeds are those of `createDefaultSeeds`
(`IDETabulationProblem.h:167-175`), call and return edges are the identity (`IDETypeStateAnalysis.h:417-429`), there are no
summaries (`IDETypeStateAnalysis.cpp:222-226`). -/
def problem : Problem Nat Val Nat S (EF S) where
  icf := p.icf
  alg := alg p.desc
  normalFlow := fun n _ => p.normalFlow n
  callFlow := p.callFlow
  retFlow := fun c f e _ => p.retFlow c f e
  ctrFlow := fun n _ => p.ctrFlow n
  summaryFlow := fun _ _ => none
  normalEdge := fun n d _ d' => p.normalEdge n d d'
  callEdge := fun _ _ _ _ => .id
  retEdge := fun _ _ _ _ _ _ => .id
  ctrEdge := fun n d _ d' => p.ctrEdge n d d'
  sumEdge := fun _ _ _ _ => .id
  zero := .zero
  seeds := p.entries.map fun sp => (sp, [(.zero, p.desc.bottom)])
  followReturnsPastSeeds := false

/-- The value is an `AllocaInst`. -/
def isAlloca (k : Nat) : Bool :=
  match p.inst k with
  | .alloca _ => true
  | _ => false

/-- `emitTextReport` (`IDETypeStateAnalysis.h:520-556`): the reports for the statement `n` with the results `res` (without the
zero value); both branches of the test for exit statements do the same. -/
def reports (n : Nat) (res : List (Val × S)) : List (Nat × Nat) :=
  res.filterMap fun r => match r.1 with
    | .node k => if p.isAlloca k && decide (r.2 = p.error) then some (n, k) else none
    | .zero => none

end Prog
end Phasar.TypeState
