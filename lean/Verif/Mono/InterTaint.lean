import Verif.Mono.Inter

/-!
# The inter-procedural monotone taint analysis

Model of `lib/PhasarLLVM/DataFlow/Mono/Problems/InterMonoTaintAnalysis.cpp`, as an instance of the problem that the
inter-procedural solver of `Verif.Mono.Inter` takes.  LLVM values are numbered; a set of values (`BitVectorSet`, modelled in
`Verif.Util`) is the number whose binary digits tell which values it contains.
-/
namespace Phasar.InterTaint
open InterMono

/-- `mono_container_t`, a `BitVectorSet<const llvm::Value *>` (`InterMonoTaintAnalysis.h:42-44`): digit `v` is set if value `v` is
an element. -/
abbrev Facts := Nat

/-- `count`. -/
def has (c : Facts) (v : Nat) : Bool := c.testBit v

/-- `insert` of a value. -/
def ins (c : Facts) (v : Nat) : Facts := c ||| 2 ^ v

/-- `erase` of a set. -/
def minus (a b : Facts) : Facts := a ^^^ (a &&& b)

/-- `erase` of a value. -/
def era (c : Facts) (v : Nat) : Facts := minus c (2 ^ v)

/-- `insert` of the elements of a sequence. -/
def insAll (c : Facts) (l : List Nat) : Facts := l.foldl ins c

/-- LLVM instructions, as far as the analysis tells them apart; `r` is the value of the instruction. -/
inductive Inst where
  /-- `store v, p` -/
  | store (v p : Nat)
  /-- `r = load p` -/
  | load (r p : Nat)
  /-- `r = getelementptr p, …` -/
  | gep (r p : Nat)
  /-- `r = bitcast v` and the other casts -/
  | cast (r v : Nat)
  /-- any other computation: binary operators, comparisons, `phi`, `select` … -/
  | op (r : Nat) (vs : List Nat)
  /-- `r = call f(args)` -/
  | call (r : Nat) (args : List Nat)
  /-- `ret v`, `ret void` -/
  | ret (v : Option Nat)
  /-- `unreachable`, `resume` -/
  | halt
  /-- an instruction that computes nothing: branches, `alloca` … -/
  | other

/-- The program under analysis with its call graph, and the taint configuration. -/
structure Prog where
  K : Nat
  inst : Nat → Inst
  /-- The formal parameters of a function. -/
  params : Nat → List Nat
  /-- `getType()->isPointerTy()`. -/
  isPtr : Nat → Bool
  funOf : Nat → Nat
  edges : Nat → List (Nat × Nat)
  succs : Nat → List Nat
  preds : Nat → List Nat
  branchTarget : Nat → Nat → Bool
  callees : Nat → List Nat
  callers : Nat → List Nat
  /-- No start points: the function is only declared. -/
  starts : Nat → List Nat
  exits : Nat → List Nat
  retSites : Nat → List Nat
  /-- `ICF->getFunction("main")`. -/
  main : Option Nat
  /-- `getRegisteredSourceCallBack`. -/
  srcCB : Option (Nat → List Nat)
  /-- `getRegisteredSinkCallBack`. -/
  sinkCB : Option (Nat → List Nat)
  /-- `Config.isSource`, of calls and of parameters. -/
  isSource : Nat → Bool
  isSink : Nat → Bool
  isSani : Nat → Bool

variable (p : Prog)

/-- The operands of a call. -/
def Prog.args (n : Nat) : List Nat := match p.inst n with | .call _ as => as | _ => []

/-- `ICF->isCallSite`. -/
def Prog.isCall (n : Nat) : Bool := match p.inst n with | .call _ _ => true | _ => false

/-- `ICF->isExitInst`, `LLVMBasedCFG.h:73-75`: a `ReturnInst`. -/
def Prog.isExit (n : Nat) : Bool := match p.inst n with | .ret _ => true | _ => false

/-- Parameters of a callee with the operands they are called with; a parameter beyond the operands has none, `callOk` and `retOk` tell
when that is undefined behaviour. -/
def Prog.bind (n f : Nat) : List (Nat × Nat) := (p.params f).zip (p.args n)

/-- The operands whose parameters satisfy a predicate: the loops of `TaintConfigUtilities.h:40-44, :62-66, :82-86`.  Simplified: for a
parameter beyond the operands these loops read beyond the operands, the model does nothing. -/
def Prog.argsWith (q : Nat → Bool) (n f : Nat) : List Nat := ((p.bind n f).filter fun x => q x.1).map (·.2)

/-- `normalFlow`, `InterMonoTaintAnalysis.cpp:56-84`. -/
def Prog.normalFlow (n : Nat) (c : Facts) : Facts :=
  match p.inst n with
  | .store v q => if has c v then ins c q else if has c q then era c q else c
  | .load r q => if has c q then ins c r else c
  | .gep r q => if has c q then ins c r else c
  | .cast r v => if has c v then ins c r else c
  | _ => c

/-- `callFlow`, `InterMonoTaintAnalysis.cpp:86-98`. -/
def Prog.callFlow (n f : Nat) (c : Facts) : Facts :=
  insAll 0 (((p.bind n f).filter fun x => has c x.2).map (·.1))

/-- Whether `callFlow` reads only operands that exist: `:93` asks for the operand of every parameter. -/
def Prog.callOk (n f : Nat) : Bool := (p.params f).length ≤ (p.args n).length

/-- `returnFlow`, `InterMonoTaintAnalysis.cpp:100-123`.  `count` of the null pointer that `ret void` returns is 0. -/
def Prog.returnFlow (n f e : Nat) (c : Facts) : Facts :=
  let out := match p.inst e, p.inst n with
    | .ret (some v), .call r _ => if has c v then ins 0 r else 0
    | _, _ => 0
  insAll out (((p.bind n f).filter fun x => p.isPtr x.1 && has c x.1).map (·.2))

/-- Whether `returnFlow` reads only operands that exist: `:117-118` asks for the operands of the tainted pointer parameters. -/
def Prog.retOk (n f : Nat) (c : Facts) : Bool :=
  !((p.params f).drop (p.args n).length).any fun q => p.isPtr q && has c q

/-- `collectGeneratedFacts`, `TaintConfigUtilities.h:27-45`. -/
def Prog.collectGen (n f : Nat) : List Nat :=
  (match p.srcCB with | some g => g n | none => []) ++
  (match p.inst n with | .call r _ => if p.isSource r then [r] else [] | _ => []) ++
  p.argsWith p.isSource n f

/-- `collectLeakedFacts`, `TaintConfigUtilities.h:50-67`, before `LeakIf` is asked. -/
def Prog.collectLeak (n f : Nat) : List Nat :=
  (match p.sinkCB with | some g => g n | none => []) ++ p.argsWith p.isSink n f

/-- `collectSanitizedFacts`, `TaintConfigUtilities.h:79-87`. -/
def Prog.collectSani (n f : Nat) : List Nat := p.argsWith p.isSani n f

/-- `Gen` after the loop in `callToRetFlow`, `InterMonoTaintAnalysis.cpp:142`. -/
def Prog.gen (n : Nat) (fs : List Nat) : Facts := fs.foldl (fun g f => insAll g (p.collectGen n f)) 0

/-- `Kill` after the loop in `callToRetFlow`, `InterMonoTaintAnalysis.cpp:145-152`: the intersection over the callees. -/
def Prog.kill (n : Nat) : List Nat → Facts
  | [] => 0
  | f :: fs => fs.foldl (fun k g => k &&& insAll 0 (p.collectSani n g)) (insAll 0 (p.collectSani n f))

/-- `callToRetFlow`, `InterMonoTaintAnalysis.cpp:125-166`. -/
def Prog.ctrFlow (n : Nat) (fs : List Nat) (c : Facts) : Facts :=
  let out := minus c (p.kill n fs) ||| p.gen n fs
  if p.gen n fs = 0 ∧ p.kill n fs = 0 then ((p.args n).filter p.isPtr).foldl era out else out

/-- What `callToRetFlow` inserts into `Leaks[CS]`, `InterMonoTaintAnalysis.cpp:143-144`. -/
def Prog.leaks (n : Nat) (fs : List Nat) (c : Facts) : List Nat :=
  fs.flatMap fun f => (p.collectLeak n f).filter fun v => has c v

/-- `initialSeeds`, `InterMonoTaintAnalysis.cpp:168-182`; `none`: a null pointer is dereferenced because there is no `main`, or the
first instruction of a `main` that is only declared is used. -/
def Prog.seeds : Option (List (Nat × Facts)) :=
  p.main.bind fun m => (p.starts m).head?.map fun s => [(s, insAll 0 (p.params m))]

/-- The problem given to the solver.  `merge` and `equal_to` are `InterMonoTaintAnalysis.cpp:41-54`; `allTop` is the default of
`IntraMonoProblem.h:82` (`mono_container_t{}`). -/
def Prog.prob : MProb Nat Nat Facts where
  K := p.K
  funOf := p.funOf
  edgesOf := p.edges
  isCall := p.isCall
  isExit := p.isExit
  callees := p.callees
  starts := p.starts
  exits := p.exits
  retSites := p.retSites
  callers := p.callers
  succs := p.succs
  preds := p.preds
  branchTarget := p.branchTarget
  normalFlow := p.normalFlow
  callFlow := p.callFlow
  returnFlow n f e _ := p.returnFlow n f e
  ctrFlow n _ := p.ctrFlow n
  merge := (· ||| ·)
  equalTo a b := b == a
  allTop := 0
  dflt := 0
  ins := (· ||| ·)
  seeds := p.seeds.getD []

end Phasar.InterTaint
