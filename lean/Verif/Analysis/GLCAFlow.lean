import Verif.Analysis.GLCA
import Verif.IDE.Ifds
/-!
# The generalized linear constant analysis: constants, flow functions and edge functions

`lib/PhasarLLVM/DataFlow/IfdsIde/Problems/IDEGeneralizedLCA/` (below `D/`): `IDEGeneralizedLCA.cpp`, `ConstantHelper.cpp`,
`MapFactsToCalleeFlowFunction.cpp`, `MapFactsToCallerFlowFunction.cpp`, and the constructor `EdgeValue(const llvm::Value *)` of
`EdgeValue.cpp`.  `none` is the outcome "failed assertion or undefined behaviour".
-/
namespace Phasar.GLCA
open IDE

/-- `d_t` is `const llvm::Value *`.  LLVM constants are unique, so a constant is named by a number; every other value (result of
an instruction, argument, global variable) is a `node`.  `zero` is `LLVMZeroValue`. -/
inductive Val where
  | zero
  | const (i : Nat)
  | node (k : Nat)
deriving DecidableEq, Repr

/-- What `isConstant` (`ConstantHelper.cpp:17-43`) and `EdgeValue(const llvm::Value *)` (`EdgeValue.cpp:55-94`) ask about a
constant.  `gep`: a constant `GEPOperator` whose pointer operand is the global variable `g`; `first`: it points to the first byte
(not asked by the code); `ofInt`: its element type is an integer type.  `other`: everything else, including constant GEPs of
something else; `isInt`: it has integer type.  Simplification: floating-point constants are already converted to `double`, and
floating-point types other than `ConstantFP` do not occur among the others. -/
inductive CKind (P : FP) where
  | int (w : Nat) (v : BitVec w)
  | fp (x : P.F)
  | null
  | gep (g : Nat) (first ofInt : Bool)
  | other (isInt : Bool)

/-- Initializers of global variables: `ConstantInt`, `ConstantFP`, a `ConstantDataArray` that is a C string, another
`ConstantDataArray`, anything else (`IDEGeneralizedLCA.cpp:229-239, 270-289`). -/
inductive Init (P : FP) where
  | int (w : Nat) (v : BitVec w)
  | fp (x : P.F)
  | str (s : String)
  | data
  | other

/-- The instructions as the analysis distinguishes them (`IDEGeneralizedLCA.cpp:58-151, 294-370`).  `cast`: `num` tells whether
the source type is an integer or floating-point type, `dest` is the destination kind with its bits (`none`: another type),
`op` the operand. -/
inductive Inst where
  | store (v ptr : Val)
  | load (ptr : Val)
  | gep (ofInt : Bool) (ptr : Val)
  | cast (num : Bool) (dest : Option (Dest × Nat)) (op : Val)
  | bin (op : Op) (l r : Val)
  | call (args : List Val)
  | ret (v : Option Val)
  | other
deriving DecidableEq

/-- The module and the ICFG as far as the analysis looks at them.  `common`: the global variable has common linkage; `vaLists`:
the allocations of type `[n x %struct.__va_list_tag]` in a function, in order; `strCtor`: `isStringConstructor`
(`IDEGeneralizedLCA.cpp:672-685`, a demangled name matched against a regular expression; not modelled further); `called`:
`CallBase::getCalledFunction`; `op0`: the global variable that is operand 0 of a value; `isMain`: the function is called "main"
(`IDEGeneralizedLCA.cpp:667-670`); `entries`: start points of the entry functions; `max`: `MaxSetSize`. -/
structure GProg (P : FP) where
  inst : Nat → Inst
  icf : ICFG Nat Nat
  const : Nat → CKind P
  isGlobal : Nat → Bool
  init : Nat → Option (Init P)
  common : Nat → Bool
  globals : List Nat
  isPtr : Nat → Bool
  params : Nat → List Nat
  isDecl : Nat → Bool
  vararg : Nat → Bool
  vaLists : Nat → List Nat
  strCtor : Nat → Bool
  called : Nat → Option Nat
  op0 : Val → Option Nat
  isMain : Nat → Bool
  entries : List Nat
  max : Nat

/-- Edge functions: `EdgeIdentity`, `AllBottom`, `GenConstant` (`GenConstant.h:18`), `BinaryEdgeFunction`,
`TypecastEdgeFunction`. -/
inductive GEF (P : FP) where
  | id
  | allBottom
  | const (S : List (EV P))
  | bin (op : Op) (S : List (EV P)) (leftConst : Bool)
  | cast (d : Dest) (bits : Nat)

variable {P : FP}

/-- `computeTarget` (`EdgeFunctionUtils.h`, `BinaryEdgeFunction.cpp:17-22`, `TypecastEdgeFunction.cpp:16-19`). -/
def GEF.ap : GEF P → List (EV P) → Option (List (EV P))
  | .id, S => some S
  | .allBottom, _ => some [.top]
  | .const T, _ => some T
  | .bin op T left, S => binaryTarget op T left S
  | .cast d bits, S => performTypecast S d bits

namespace GProg
variable (p : GProg P)

/-- The initializer is a `ConstantDataArray`. -/
def isCDA (g : Nat) : Bool :=
  match p.init g with
  | some (.str _) | some .data => true
  | _ => false

/-- `isConstant` (`D/ConstantHelper.cpp:17-43`).  A `GEPOperator` is a constant expression or an instruction. -/
def isConstant : Val → Bool
  | .zero => false
  | .const i =>
    match p.const i with
    | .int .. | .fp _ | .null => true
    | .gep g _ ofInt => ofInt && p.isCDA g
    | .other _ => false
  | .node k =>
    match p.inst k with
    | .gep ofInt (.node g) => ofInt && p.isGlobal g && p.isCDA g
    | _ => false

/-- `EdgeValue(const llvm::Value *)` (`D/EdgeValue.cpp:55-94`): `cast<ConstantInt>` fails for other constants of integer type,
`getAsCString` for arrays that are no strings, and `getInitializer` without initializer.  Nodes are no `llvm::Constant`s, or
global variables, which match none of the cases. -/
def evOf : Val → Option (EV P)
  | .zero | .node _ => some .top
  | .const i =>
    match p.const i with
    | .int w v => some (.int w v)
    | .fp x => some (.fp x)
    | .null => some (.str "")
    | .gep g _ ofInt =>
      if ofInt then
        match p.init g with
        | some (.str s) => some (.str s)
        | _ => none
      else some .top
    | .other isInt => if isInt then none else some .top

/-- `getNormalFlowFunction` (`IDEGeneralizedLCA.cpp:55-151`). -/
def normalFlow (n : Nat) (d : Val) : List Val :=
  match p.inst n with
  | .store v ptr =>
    if p.isConstant v then
      if d = ptr then [] else if d = .zero then [ptr] else [d]
    else if d = ptr then [] else if d = v then [ptr, v] else [d]
  | .load ptr => if d = ptr then [d, .node n] else [d]
  | .gep _ ptr => if d = ptr then [d, .node n] else [d]
  | .cast num dest op => if num && dest.isSome then (if d = op then [d, .node n] else [d]) else [d]
  | .bin _ l r =>
    if d = l ∨ d = r ∨ (p.isConstant l = p.isConstant r ∧ d = .zero) then [d, .node n] else [d]
  | _ => [d]

/-- `CallBase::args()`. -/
def args (n : Nat) : List Val :=
  match p.inst n with
  | .call as => as
  | _ => []

/-- The loop over the actuals (`D/MapFactsToCalleeFlowFunction.cpp:35-67, 74-79`) from index `i` on. -/
def calleeLoop (f : Nat) (d : Val) : Nat → List Val → Option (List Val)
  | _, [] => some []
  | i, a :: as =>
    if d = a ∨ (d = .zero ∧ p.isConstant a = true) then
      if p.vararg f = true ∧ (p.params f).length ≤ i ∧ p.isDecl f = false then
        (calleeLoop f d (i + 1) as).map fun ts => (p.vaLists f).map .node ++ ts
      else match (p.params f)[i]? with
        | some k => (calleeLoop f d (i + 1) as).map fun ts => .node k :: ts
        | none => none
    else calleeLoop f d (i + 1) as

/-- `getCallFlowFunction` (`IDEGeneralizedLCA.cpp:154-164`) with `MapFactsToCalleeFlowFunction`
(`D/MapFactsToCalleeFlowFunction.cpp:19-84`).  `Formals[Idx]` beyond the end is undefined. -/
def callFlow (n f : Nat) (d : Val) : Option (List Val) :=
  if p.strCtor f then some []
  else (p.calleeLoop f d 0 (p.args n)).map fun ts => if d = .zero then ts ++ [.zero] else ts

/-- The loop over the formals (`D/MapFactsToCallerFlowFunction.cpp:67-71`) from index `i` on. -/
def callerLoop (as : List Val) (d : Val) : Nat → List Nat → Option (List Val)
  | _, [] => some []
  | i, k :: ks =>
    if d = .node k ∧ p.isPtr k = true then
      match as[i]? with
      | some a => (callerLoop as d (i + 1) ks).map fun ts => a :: ts
      | none => none
    else callerLoop as d (i + 1) ks

/-- `getRetFlowFunction` (`IDEGeneralizedLCA.cpp:166-181`) with `MapFactsToCallerFlowFunction`
(`D/MapFactsToCallerFlowFunction.cpp:21-82`): call site, called function, exit statement.  The constructor's `cast<ReturnInst>`
fails for other exit statements, i.e. `resume`. -/
def retFlow (c f e : Nat) (d : Val) : Option (List Val) :=
  match p.inst e with
  | .ret rv =>
    let va := if p.vararg f = true ∧ p.isDecl f = false then
        match (p.vaLists f).getLast? with
        | some k => if d = .node k ∧ p.isPtr k = true then (p.args c).drop (p.params f).length else []
        | none => []
      else []
    let ret := match rv with
      | some v => if d = v ∨ (d = .zero ∧ p.isConstant v = true) then [Val.node c] else []
      | none => []
    (p.callerLoop (p.args c) d 0 (p.params f)).map fun ts => va ++ ts ++ ret
  | _ => none

/-- `isStringConstructor(CS->getCalledFunction())`. -/
def callsStrCtor (n : Nat) : Bool :=
  match p.called n with
  | some f => p.strCtor f
  | none => false

/-- `getCallToRetFlowFunction` (`IDEGeneralizedLCA.cpp:183-211`); `getArgOperand(0)` needs an argument. -/
def ctrFlow (n : Nat) (d : Val) : Option (List Val) :=
  if p.callsStrCtor n then
    match (p.args n)[0]? with
    | some a => some (if d = .zero then [d, a] else [d])
    | none => none
  else some [d]

/-- The edge into a binary operator (`IDEGeneralizedLCA.cpp:330-355`). -/
def binEdge (op : Op) (l r d : Val) : Option (GEF P) :=
  if p.isConstant l then
    (p.evOf l).bind fun a =>
      if p.isConstant r = true ∧ d = .zero then
        (p.evOf r).bind fun b => (performBinOp op [a] [b] p.max).map .const
      else some (.bin op [a] true)
  else if p.isConstant r then (p.evOf r).map fun b => .bin op [b] false
  else some (.const [.top])

/-- The first case of `getNormalEdgeFunction` (`IDEGeneralizedLCA.cpp:265-290`): the initial value of a global variable; the
outer `none` is a failed assertion, the inner one "go on". -/
def initEdge (g : Nat) : Option (Option (GEF P)) :=
  if p.common g then some none
  else match p.init g with
    | none => none
    | some (.int w v) => some (some (.const [.int w v]))
    | some (.fp x) => some (some (.const [.fp x]))
    | some (.str s) => some (some (.const [.str s]))
    | some .data => none
    | some .other => some none

/-- The further cases of `getNormalEdgeFunction` (`IDEGeneralizedLCA.cpp:292-371`). -/
def instEdge (n : Nat) (d d' : Val) : Option (GEF P) :=
  if d = .zero ∧ d' = .zero then some .id
  else match p.inst n with
    | .store v ptr => if ptr = d' ∧ d = .zero ∧ p.isConstant v = true then (p.evOf v).map fun a => .const [a] else some .id
    | .bin op l r => if d' = .node n then p.binEdge op l r d else some .id
    | .cast _ dest _ =>
      if d' = .node n then
        match dest with
        | some (k, bits) => some (.cast k bits)
        | none => some .id
      else some .id
    | _ => some .id

/-- `getNormalEdgeFunction` (`IDEGeneralizedLCA.cpp:255-372`). -/
def normalEdge (n : Nat) (d d' : Val) : Option (GEF P) :=
  match d with
  | .node g =>
    if p.isGlobal g = true ∧ p.icf.isStart n = true ∧ p.isMain (p.icf.funOf n) = true ∧ d = d' then
      match p.initEdge g with
      | none => none
      | some (some e) => some e
      | some none => p.instEdge n d d'
    else p.instEdge n d d'
  | _ => p.instEdge n d d'

/-- The loop of `getCallEdgeFunction` (`IDEGeneralizedLCA.cpp:381-388`): the first formal equal to `DestNode`, among as many as
there are arguments. -/
def callEdgeLoop (d' : Val) : List Nat → List Val → Option (GEF P)
  | k :: ks, a :: as => if d' = .node k then (p.evOf a).map fun x => .const [x] else callEdgeLoop d' ks as
  | _, _ => some .id

/-- `getCallEdgeFunction` (`IDEGeneralizedLCA.cpp:374-391`). -/
def callEdge (n : Nat) (d : Val) (f : Nat) (d' : Val) : Option (GEF P) :=
  if d = .zero then p.callEdgeLoop d' (p.params f) (p.args n) else some .id

/-- `getReturnEdgeFunction` (`IDEGeneralizedLCA.cpp:393-411`). -/
def retEdge (e : Nat) (d : Val) : Option (GEF P) :=
  if d = .zero then
    match p.inst e with
    | .ret (some v) => if p.isConstant v then (p.evOf v).map fun x => .const [x] else some .id
    | _ => some .id
  else some .id

/-- `getCallToRetEdgeFunction` (`IDEGeneralizedLCA.cpp:413-449`); `getArgOperand(1)` needs a second argument. -/
def ctrEdge (n : Nat) (d d' : Val) : Option (GEF P) :=
  if p.callsStrCtor n then
    match (p.args n)[0]? with
    | none => none
    | some a =>
      if d = .zero ∧ d' = a then
        match (p.args n)[1]? with
        | none => none
        | some b =>
          match p.op0 b with
          | none => some .id
          | some g =>
            match p.init g with
            | none => some .allBottom
            | some (.str s) => some (.const [.str s])
            | _ => some .id
      else some .id
  else some .id

/-- `initialSeeds` (`IDEGeneralizedLCA.cpp:221-243`): the facts at every start point of an entry function.  `bottomElement()`
is the set of the unknown value (`IDEGeneralizedLCA.cpp:461-463`). -/
def seedFacts : List (Val × List (EV P)) :=
  (.zero, [.top]) :: (p.globals.filter fun g => match p.init g with
    | some (.int ..) | some (.str _) | some .data => true
    | _ => false).map fun g => (.node g, [.top])

/-- An edge function applied to a value. -/
def apply (e : Option (GEF P)) (v : Option (List (EV P))) : Option (List (EV P)) := e.bind fun f => v.bind f.ap

/-- The realizable runs of the exploded super graph (`IDESolver.h:349-560`, see `RStep` in `Verif/IDE/Spec.lean`): pending
calls, statement, fact, and the value that the edge functions give along the run, starting from the value of the seed.  The
solver adds zero to the results of the flow functions for zero (`FlowFunctions.h:111-118`; `autoAddZero` is on by default). -/
inductive Run : List Nat → Nat → Val → Option (List (EV P)) → Prop
  | seed {sp d v} : sp ∈ p.entries → (d, v) ∈ p.seedFacts → Run [] sp d (some v)
  | normal {stk n d v n' d'} : Run stk n d v → p.icf.isCall n = false → n' ∈ p.icf.succs n →
      d' ∈ zeroed .zero (p.normalFlow n) d → Run stk n' d' (apply (p.normalEdge n d d') v)
  | call {stk n d v f sp ts d'} : Run stk n d v → p.icf.isCall n = true → f ∈ p.icf.callees n → sp ∈ p.icf.starts f →
      p.callFlow n f d = some ts → d' ∈ zeroed .zero (fun _ => ts) d → Run (n :: stk) sp d' (apply (p.callEdge n d f d') v)
  | ret {stk c n d v r ts d'} : Run (c :: stk) n d v → p.icf.isCall n = false → p.icf.isExit n = true → r ∈ p.icf.retSites c →
      p.retFlow c (p.icf.funOf n) n d = some ts → d' ∈ zeroed .zero (fun _ => ts) d → Run stk r d' (apply (p.retEdge n d) v)
  | ctr {stk n d v r ts d'} : Run stk n d v → p.icf.isCall n = true → r ∈ p.icf.retSites n → p.ctrFlow n d = some ts →
      d' ∈ zeroed .zero (fun _ => ts) d → Run stk r d' (apply (p.ctrEdge n d d') v)

end GProg
end Phasar.GLCA
