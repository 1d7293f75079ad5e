import Verif.Analysis.LCA
import Verif.IDE.Spec
import Verif.Store.LLVMFlow
/-!
# The linear constant analysis as a tabulation problem

Flow functions, edge functions and seeds of `lib/PhasarLLVM/DataFlow/IfdsIde/Problems/IDELinearConstantAnalysis.cpp`, as an
input of the solver model (`Verif/IDE/Model.lean`); and, as specification, what the instructions do.
-/
namespace Phasar.LCA
open JoinLat IDE

/-- The instructions as the analysis distinguishes them (`IDELinearConstantAnalysis.cpp:296-358, 432-435`).  The result of
statement `n` is the value `node n`.  `int` tells whether the type looked at is an integer type.  Pointer operands are values
`node p`.  `store`: value, pointer operand, pointer operand without casts.  `extract`: `ExtractValueInst` with
the given index of a `BinaryOpIntrinsic`; the analysis ignores the index.  `intrinsic`: call of a `BinaryOpIntrinsic`, i.e. of a
`WithOverflowInst` or a `SaturatingInst` (`sat`), which the analysis does not distinguish.  `other`: everything else. -/
inductive Inst where
  | alloca (int : Bool)
  | store (int : Bool) (v : Val) (ptr base : Nat)
  | gep (int : Bool) (ptr : Nat)
  | load (int : Bool) (ptr : Nat)
  | bin (op : Op) (l r : Val)
  | extract (int : Bool) (idx agg : Nat)
  | call (args : List Val)
  | intrinsic (sat : Bool) (op : Op) (l r : Val)
  | ret (v : Option Val)
  | other
deriving DecidableEq, Repr

/-- The module and the ICFG as far as the analysis looks at them.  `isGlobal`: the value is an `llvm::Constant` other than a
`ConstantInt`; `isPtr`: it has pointer type; `params`, `sret`, `isDecl` describe functions; `globals`: the global variables
with an initializer that is a `ConstantInt`; `entries`: the start points of the entry functions.  Simplification: no functions
with variable arguments. -/
structure Prog where
  inst : Nat → Inst
  icf : ICFG Nat Nat
  isGlobal : Nat → Bool
  isPtr : Nat → Bool
  params : Nat → List Nat
  sret : Nat → Bool
  isDecl : Nat → Bool
  globals : List (Nat × BitVec 64)
  entries : List Nat

namespace Prog
variable (p : Prog)

/-- `llvm::isa<llvm::Constant>`, see `FlowFn.IR`. -/
def ir : FlowFn.IR Val where
  zero := .zero
  isConst := fun v => match v with
    | .zero => true
    | .const _ => true
    | .node k => p.isGlobal k

/-- The called function as an argument of the mapping functions. -/
def callee (f : Nat) : FlowFn.Callee Val where
  decl := p.isDecl f
  params := (p.params f).map .node
  sret := p.sret f
  vaLists := []

/-- `CallBase::args()`. -/
def args (n : Nat) : List Val :=
  match p.inst n with
  | .call as => as
  | .intrinsic _ _ l r => [l, r]
  | _ => []

/-- `Value::getType()->isPointerTy()`. -/
def ptrTy : Val → Bool
  | .node k => p.isPtr k
  | _ => false

/-- `getNormalFlowFunction` (`IDELinearConstantAnalysis.cpp:294-361`). -/
def normalFlow (n : Nat) : FlowFn.FF Val :=
  match p.inst n with
  | .alloca true => FlowFn.generateFlow (.node n) .zero
  | .store int v ptr base =>
    if v.constInt?.isSome then FlowFn.strongUpdateStoreIf (.node ptr) (.node base) (fun s => decide (s = .zero))
    else if int then FlowFn.strongUpdateStore v (.node ptr) (.node base)
    else FlowFn.identityFlow
  | .gep true ptr => FlowFn.generateFlow (.node n) (.node ptr)
  | .load true ptr => FlowFn.generateFlowIf (.node n) (fun s => decide (s = .node ptr))
  | .bin _ l r => FlowFn.generateFlowIf (.node n) (fun s => generates l r s)
  | .extract true _ agg => FlowFn.generateFlow (.node n) (.node agg)
  | _ => FlowFn.identityFlow

/-- `getCallFlowFunction` (`IDELinearConstantAnalysis.cpp:363-376`). -/
def callFlow (n f : Nat) : FlowFn.FF Val :=
  if p.isDecl f then FlowFn.identityFlow
  else FlowFn.mapFactsToCallee p.ir (p.args n) (p.callee f)
    (fun arg s => decide (arg = s) || (decide (s = .zero) && arg.constInt?.isSome)) true true

/-- `ReturnInst::getReturnValue()` of the exit statement; `none` also for other exit statements. -/
def retVal (e : Nat) : Option Val :=
  match p.inst e with
  | .ret v => v
  | _ => none

/-- `getRetFlowFunction` (`IDELinearConstantAnalysis.cpp:378-390`). -/
def retFlow (c f e : Nat) : FlowFn.FF Val :=
  FlowFn.mapFactsToCaller p.ir (.node c) (p.args c) (p.callee f) (p.retVal e)
    (fun a s => decide (a = s) && p.ptrTy a)
    (fun rv s => decide (rv = s) || (decide (s = .zero) && rv.constInt?.isSome)) true true

/-- `getCallToRetFlowFunction` (`IDELinearConstantAnalysis.cpp:392-403`). -/
def ctrFlow (n : Nat) : FlowFn.FF Val :=
  if (p.icf.callees n).all p.isDecl then FlowFn.identityFlow
  else FlowFn.mapFactsAlongsideCallSite p.ir (p.args n) (fun a => !p.ptrTy a) false

/-- `getSummaryFlowFunction` (`IDELinearConstantAnalysis.cpp:429-446`); `none` is the null pointer. -/
def summaryFlow (n : Nat) : Option (FlowFn.FF Val) :=
  match p.inst n with
  | .intrinsic _ _ l r => some (FlowFn.generateFlowIf (.node n) (fun s => generates l r s))
  | _ => none

/-- `getNormalEdgeFunction` (`IDELinearConstantAnalysis.cpp:460-526`). -/
def normalEdge (n : Nat) (d d' : Val) : EF :=
  if d = .zero ∧ d' = .zero then .id
  else match p.inst n with
    | .alloca _ => if d = .zero then .allBottom else .id
    | .store _ v ptr base =>
      if d' = .node ptr ∨ d' = .node base then
        match d, v with
        | .zero, .const c => .const true c
        | _, _ => .id
      else .id
    | .bin op l r => if d' = .node n ∧ d ≠ d' then binEdge op l r d else .id
    | _ => .id

/-- `getCallEdgeFunction` (`IDELinearConstantAnalysis.cpp:528-542`): `getFunctionArgumentNr` is the position of the parameter
in its function.  Simplification: `DestNode` is looked up among the parameters of the called function. -/
def callEdge (n : Nat) (d : Val) (f : Nat) (d' : Val) : EF :=
  if d = .zero ∧ d' ≠ .zero then
    match (p.callee f).params.findIdx? (fun x => decide (x = d')) with
    | some i => match (p.args n)[i]? with
      | some (.const c) => .const true c
      | _ => .id
    | none => .id
  else .id

/-- `getReturnEdgeFunction` (`IDELinearConstantAnalysis.cpp:544-557`).  Simplification: the `cast<ReturnInst>` of line 549, which
fails for other exit statements, is not modelled; such statements return no value here. -/
def retEdge (e : Nat) (d d' : Val) : EF :=
  if d = .zero ∧ d' ≠ .zero then
    match p.retVal e with
    | some (.const c) => .const true c
    | _ => .id
  else .id

/-- `getSummaryEdgeFunction` (`IDELinearConstantAnalysis.cpp:565-586`). -/
def sumEdge (n : Nat) (d d' : Val) : EF :=
  match p.inst n with
  | .intrinsic _ op l r =>
    if (d = l ∧ r.constInt? = none) ∨ (d = r ∧ l.constInt? = none) then .allBottom
    else if d' = .node n ∧ d ≠ d' then .bin ⟨op, l, r, d⟩
    else .id
  | _ => .id

/-- The edge functions with the semiring operations of the solver.  `EF.ap` and `EF.compose` have no result only where the
C++ code has undefined behaviour; `ap_total` and `compose_total` (`LCAAlg.lean`) show that this does not happen for the functions built
from safe remainders, so that the default values do not matter. -/
def alg : EdgeAlg V EF where
  ap := fun f x => (f.ap x).getD .bottom
  extend := fun f g => (f.compose g).getD .allBottom
  combine := EF.joinWith
  eqE := EF.eq
  idE := .id
  allTop := .allTop

/-- `initialSeeds` (`IDELinearConstantAnalysis.cpp:405-427`). -/
def seeds : List (Nat × List (Val × V)) :=
  p.entries.map fun sp => (sp, (.zero, .bottom) :: p.globals.map fun g => (.node g.1, .val g.2))

/-- The tabulation problem `IDELinearConstantAnalysis`.  `getCallToRetEdgeFunction` (`IDELinearConstantAnalysis.cpp:559-563`)
is the identity. -/
def problem : Problem Nat Val Nat V EF where
  icf := p.icf
  alg := alg
  normalFlow := fun n _ => p.normalFlow n
  callFlow := p.callFlow
  retFlow := fun c f e _ => p.retFlow c f e
  ctrFlow := fun n _ => p.ctrFlow n
  summaryFlow := fun n _ => p.summaryFlow n
  normalEdge := fun n d _ d' => p.normalEdge n d d'
  callEdge := p.callEdge
  retEdge := fun _ _ e d _ d' => p.retEdge e d d'
  ctrEdge := fun _ _ _ _ => .id
  sumEdge := fun n d _ d' => p.sumEdge n d d'
  zero := .zero
  seeds := p.seeds
  followReturnsPastSeeds := false

end Prog

/-! ### Specification: what programs do

Programs whose integers have `w` bits.  A cell is the value of an integer variable, or the content of an integer memory
location, which has the name of its alloca or global variable.  Memory locations are accessed by their name only (no
pointers to them are passed around), and external functions do not access them. -/

/-- A value, and whether it stems from sources the analysis knows (constants, fresh memory). -/
structure Cell (w : Nat) where
  v : BitVec w
  tracked : Bool

/-- A state of the program: pending calls with the variables of the caller, next statement, local cells, global cells. -/
structure CState (w : Nat) where
  stk : List (Nat × (Nat → Cell w))
  n : Nat
  loc : Nat → Cell w
  glob : Nat → Cell w

/-- Function update. -/
def upd {X : Type} (f : Nat → X) (k : Nat) (x : X) : Nat → X := fun j => if j = k then x else f j

namespace Prog
variable (p : Prog) {w : Nat}

/-- The cell of a variable or memory location. -/
def cell (loc glob : Nat → Cell w) (k : Nat) : Cell w := if p.isGlobal k then glob k else loc k

/-- The value of an operand; a constant is represented by its sign extension. -/
def operand (loc glob : Nat → Cell w) : Val → BitVec w
  | .const c => c.setWidth w
  | .node k => (p.cell loc glob k).v
  | .zero => 0#w

/-- The operand is tracked. -/
def opTracked (loc glob : Nat → Cell w) : Val → Bool
  | .node k => (p.cell loc glob k).tracked
  | _ => false

/-- The operand as a cell: constants are tracked. -/
def opCell (loc glob : Nat → Cell w) (v : Val) : Cell w :=
  ⟨p.operand loc glob v, v.constInt?.isSome || p.opTracked loc glob v⟩

/-- Change the cell of a memory location. -/
def write (loc glob : Nat → Cell w) (k : Nat) (c : Cell w) : (Nat → Cell w) × (Nat → Cell w) :=
  if p.isGlobal k then (loc, upd glob k c) else (upd loc k c, glob)

/-- `Effect n loc glob loc' glob'`: executing the statement `n`, which is no call, may change the cells in this way.  Fresh
memory contains anything.  Operations the analysis does not interpret yield anything, and results that it does not track are
not tracked.  The cell of an overflow intrinsic holds the first component of its result, so extracting index 0 is a copy. -/
inductive Effect (n : Nat) (loc glob : Nat → Cell w) : (Nat → Cell w) → (Nat → Cell w) → Prop
  | alloca (v : BitVec w) : p.inst n = .alloca true → Effect n loc glob (upd loc n ⟨v, true⟩) glob
  | store (v : Val) (k : Nat) : p.inst n = .store true v k k →
      Effect n loc glob (p.write loc glob k (p.opCell loc glob v)).1 (p.write loc glob k (p.opCell loc glob v)).2
  | load (k : Nat) : p.inst n = .load true k → Effect n loc glob (upd loc n (p.cell loc glob k)) glob
  | extract (k : Nat) : p.inst n = .extract true 0 k → Effect n loc glob (upd loc n (p.cell loc glob k)) glob
  | bin (op : Op) (l r : Val) (z : BitVec w) : p.inst n = .bin op l r →
      (op = .other ∨ llvm op (p.operand loc glob l) (p.operand loc glob r) = some z) →
      Effect n loc glob (upd loc n ⟨z, (l.constInt?.isSome && r.constInt?.isSome) || p.opTracked loc glob l ||
        p.opTracked loc glob r⟩) glob
  | other (v : BitVec w) : (p.inst n = .other ∨ p.inst n = .alloca false ∨ (∃ k, p.inst n = .load false k) ∨
      (∃ k, p.inst n = .gep false k) ∨ (∃ v, p.inst n = .ret v)) → Effect n loc glob (upd loc n ⟨v, false⟩) glob
  | storeOther (v : Val) (k b : Nat) : p.inst n = .store false v k b → v.constInt? = none → Effect n loc glob loc glob

/-- One step of the program. -/
inductive CStep : CState w → CState w → Prop
  /-- A statement other than a call. -/
  | normal {stk n loc glob n' loc' glob'} : p.icf.isCall n = false → n' ∈ p.icf.succs n → p.Effect n loc glob loc' glob' →
      CStep ⟨stk, n, loc, glob⟩ ⟨stk, n', loc', glob'⟩
  /-- Call of a function with a body: the parameters get the values of the arguments, all other local cells are new. -/
  | call {stk n loc glob as f sp loc'} : p.icf.isCall n = true → p.inst n = .call as → f ∈ p.icf.callees n →
      p.isDecl f = false → sp ∈ p.icf.starts f →
      (∀ (i k : Nat) (a : Val), (p.params f)[i]? = some k → as[i]? = some a → loc' k = p.opCell loc glob a) →
      (∀ k, k ∉ p.params f → (loc' k).tracked = false) →
      CStep ⟨stk, n, loc, glob⟩ ⟨(n, loc) :: stk, sp, loc', glob⟩
  /-- Return: the call gets the returned value. -/
  | ret {stk c locc n loc glob r v} (x : Cell w) : p.icf.isCall n = false → p.icf.isExit n = true → p.inst n = .ret v →
      r ∈ p.icf.retSites c → (∀ a, v = some a → x = p.opCell loc glob a) → (v = none → x.tracked = false) →
      CStep ⟨(c, locc) :: stk, n, loc, glob⟩ ⟨stk, r, upd locc c x, glob⟩
  /-- Call of an external function. -/
  | extern {stk n loc glob as r} (v : BitVec w) : p.icf.isCall n = true → p.inst n = .call as →
      (∀ f ∈ p.icf.callees n, p.isDecl f = true) → r ∈ p.icf.retSites n →
      CStep ⟨stk, n, loc, glob⟩ ⟨stk, r, upd loc n ⟨v, false⟩, glob⟩
  /-- Call of an overflow intrinsic. -/
  | intrinsic {stk n loc glob op l rr g r} (z : BitVec w) : p.icf.isCall n = true → p.inst n = .intrinsic false op l rr →
      g ∈ p.icf.callees n → (∀ f ∈ p.icf.callees n, p.isDecl f = true) → r ∈ p.icf.retSites n →
      (op = .other ∨ llvm op (p.operand loc glob l) (p.operand loc glob rr) = some z) →
      CStep ⟨stk, n, loc, glob⟩ ⟨stk, r, upd loc n ⟨z, (l.constInt?.isSome && rr.constInt?.isSome) ||
        p.opTracked loc glob l || p.opTracked loc glob rr⟩, glob⟩

/-- Zero or more steps. -/
inductive CSteps : CState w → CState w → Prop
  | refl (s : CState w) : CSteps s s
  | tail {a b c : CState w} : CSteps a b → p.CStep b c → CSteps a c

/-- Initial states: an entry point, no local variable known, global variables as initialised. -/
def Init (s : CState w) : Prop :=
  s.stk = [] ∧ s.n ∈ p.entries ∧ (∀ k, (s.loc k).tracked = false) ∧
    ∀ k, (s.glob k).tracked = true → ∃ c, (k, c) ∈ p.globals ∧ (s.glob k).v = c.setWidth w

/-- The operators whose folding is right for `w`-bit instructions (C35). -/
def OkOp (w : Nat) (op : Op) : Prop :=
  op = .add ∨ op = .sub ∨ op = .mul ∨ op = .and ∨ op = .or ∨ op = .xor ∨ op = .other ∨ (w = 64 ∧ (op = .sdiv ∨ op = .srem))

/-- A remainder that cannot divide the smallest number by -1 (see `C35_undefined_false`). -/
def SafeOp (op : Op) (l r : Val) : Prop :=
  (op = .srem ∨ op = .urem) → l ≠ .const (BitVec.intMin 64) ∧ r ≠ .const (-1#64)

/-- The instruction is a binary operator or an arithmetic intrinsic. -/
def IsArith (n : Nat) (op : Op) (l r : Val) : Prop := p.inst n = .bin op l r ∨ ∃ sat, p.inst n = .intrinsic sat op l r

/-- What is required of the program: operators folded rightly, instructions do not use their own result and do not store a
pointer to itself, arguments and parameters are not pointers, there are no `sret` parameters, parameters are local and
different from each other, calls have the right number of arguments, entry points are start points. -/
structure WF (w : Nat) : Prop where
  ops : ∀ n op l r, p.IsArith n op l r → OkOp w op ∧ SafeOp op l r
  ssa : ∀ n op l r, p.IsArith n op l r → l ≠ .node n ∧ r ≠ .node n
  store : ∀ n int v k b, p.inst n = .store int v k b → v ≠ .node k
  args : ∀ n as, p.inst n = .call as → ∀ a ∈ as, p.ptrTy a = false
  params : ∀ f, (p.params f).Nodup ∧ p.sret f = false ∧ ∀ k ∈ p.params f, p.isGlobal k = false ∧ p.isPtr k = false
  arity : ∀ n as, p.inst n = .call as → ∀ f ∈ p.icf.callees n, p.isDecl f = false → as.length = (p.params f).length
  entries : ∀ sp ∈ p.entries, sp ∈ p.icf.starts (p.icf.funOf sp)

end Prog

/-- The abstract value describes the concrete one: bottom describes everything, a constant describes its low bits, top
("no information") nothing. -/
def Describes {w : Nat} (x : V) (z : BitVec w) : Prop :=
  match x with
  | .top => False
  | .bottom => True
  | .val a => a.setWidth w = z

end Phasar.LCA
