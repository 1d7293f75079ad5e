import Verif.Mono.Inter
import Verif.Mono.Prob

/-!
# The inter-procedural monotone constant propagation

Model of `lib/PhasarLLVM/DataFlow/Mono/Problems/InterMonoFullConstantPropagation.cpp`, as an instance of the problem that the
inter-procedural solver of `Verif.Mono.Inter` takes.  `normalFlow`, `equal_to` and `initialSeeds` delegate to the intra-procedural
analysis modelled in `Verif.Mono.Prob`.
-/
namespace Phasar.InterConst
open InterMono MonoProb

/-- Instructions: those of the intra-procedural analysis (`IntraMonoFullConstantPropagation.cpp:96-183`), calls with their operands
(`InterMonoFullConstantPropagation.cpp:79-91`; `callbr`, for which `callFlow` maps nothing, is left out), `ret` with its operand and whether
its type is an integer type (`:128-131`; no operand: `ret void`), and other exits (`resume`, `unreachable`). -/
inductive IInst where
  | plain (i : Inst)
  | call (args : List Opd)
  | ret (v : Option (Opd × Bool))
  | halt
deriving DecidableEq

/-- The program under analysis with its control-flow and call graph, as the solver asks for them (`InterMonoSolver.h:50-345`), the formal
parameters of the functions, `isVarArg` and the start points of the entry functions. -/
structure IProg where
  K : Nat
  inst : Nat → IInst
  params : Nat → List Nat
  varArg : Nat → Bool
  funOf : Nat → Nat
  edges : Nat → List (Nat × Nat)
  succs : Nat → List Nat
  preds : Nat → List Nat
  branchTarget : Nat → Nat → Bool
  callees : Nat → List Nat
  callers : Nat → List Nat
  starts : Nat → List Nat
  exits : Nat → List Nat
  retSites : Nat → List Nat
  entries : List Nat

variable (p : IProg)

/-- The instructions as the intra-procedural `normalFlow` sees them (`IntraMonoFullConstantPropagation.cpp:89-186`): it does nothing for
calls and exits. -/
def IProg.func : Func where
  funs := []
  succs := p.succs
  preds := p.preds
  branchTarget := p.branchTarget
  starts := p.entries
  inst n := match p.inst n with | .plain i => i | _ => .other

/-- `normalFlow`, `InterMonoFullConstantPropagation.cpp:65-70`. -/
def IProg.normalFlow (n : Nat) (c : CMap) : CMap := constFlow p.func n c

/-- `ICF->isCallSite`, `LLVMBasedCFG.h:70-72`. -/
def IProg.isCall (n : Nat) : Bool := match p.inst n with | .call _ => true | _ => false

/-- `ICF->isExitInst`, `LLVMBasedCFG.h:73-75`: `ReturnInst`. -/
def IProg.isExit (n : Nat) : Bool := match p.inst n with | .ret _ => true | _ => false

/-- What `callFlow` knows of an operand, `InterMonoFullConstantPropagation.cpp:98-108`: the entry of the map, or the literal; constants
are no keys of the map. -/
def argVal (c : CMap) : Opd → Option V
  | .lit x => some (.val x)
  | .undef => none
  | .val k => c.get k

/-- The loop of `callFlow` from index `i` on, `InterMonoFullConstantPropagation.cpp:97-109`.  `none`: `Formals[Idx]` beyond the end of
the vector. -/
def callLoop (formals : List Nat) (c : CMap) : Nat → List Opd → CMap → Option CMap
  | _, [], out => some out
  | i, a :: as, out =>
    match argVal c a with
    | none => callLoop formals c (i + 1) as out
    | some v =>
      match formals[i]? with
      | some f => callLoop formals c (i + 1) as (out.insert f v)
      | none => none

/-- `callFlow`, `InterMonoFullConstantPropagation.cpp:72-117`; the output written for literals is left out. -/
def IProg.callFlow (n f : Nat) (c : CMap) : Option CMap :=
  match p.inst n with
  | .call as => if as.isEmpty || p.varArg f then some .empty else callLoop (p.params f) c 0 as .empty
  | _ => some .empty

/-- `returnFlow`, `InterMonoFullConstantPropagation.cpp:119-147`; the output is left out.  `none`: the null pointer that `ret void`
returns is dereferenced at `:129`. -/
def IProg.returnFlow (n e : Nat) (c : CMap) : Option CMap :=
  match p.inst e with
  | .ret none => none
  | .ret (some (v, isInt)) =>
    if isInt then
      match argVal c v with
      | some x => some (CMap.empty.insert n x)
      | none => some .empty
    else some .empty
  | _ => some .empty

/-- The problem given to the solver: `merge` (`InterMonoFullConstantPropagation.cpp:45-51`) is the empty map, `equal_to` (`:53-57`),
`initialSeeds` (`:59-63`), `callToRetFlow` (`:149-156`) the identity; `allTop` is the default of `IntraMonoProblem.h:82`
(`mono_container_t{}`).  Undefined flows are continued with the empty map, so statements about runs of the solver are about programs for
which no flow is undefined. -/
def IProg.prob : MProb Nat Nat CMap where
  K := p.K
  funOf := p.funOf
  edgesOf := p.edges
  isCall := p.isCall
  isExit := p.isExit
  callees := p.callees
  starts := p.starts
  exits := p.exits
  retSites := p.retSites
  callers := p.callers
  succs := p.succs
  preds := p.preds
  branchTarget := p.branchTarget
  normalFlow := p.normalFlow
  callFlow n f c := (p.callFlow n f c).getD .empty
  returnFlow n _ e _ c := (p.returnFlow n e c).getD .empty
  ctrFlow _ _ _ c := c
  merge _ _ := .empty
  equalTo := CMap.same
  allTop := .empty
  dflt := .empty
  ins := CMap.insertAll
  seeds := (FSet.ofList p.entries).map fun n => (n, .empty)

/-! ## Specification -/

/-- Specification: `d` is entered from `n` and from elsewhere by a branch. -/
def IProg.Join (n d : Nat) : Prop := p.branchTarget n d = true ∧ ∃ q ∈ p.preds d, q ≠ n

open Classical in
/-- Specification: what remains of the facts along the edge from `n` to `d`. -/
noncomputable def IProg.pass (n d : Nat) (c : CMap) : CMap := if p.Join n d then .empty else c

/-- Specification: a caller: the call, the registers and memory before the call, and the facts there. -/
structure Frame where
  site : Nat
  st : State
  facts : CMap

/-- Specification: the condition under which the flow of the statement `n` is right, see `C69_sound_partial`: arithmetic in range, the
statement is new (no entry for it), and what is stored to a tracked variable is known. -/
structure Ok (E : Env) (n : Nat) (s : State) (c : CMap) : Prop where
  range : InRange p.func E n s
  fresh : c.get n = none
  known : ∀ v b ptr, p.func.inst n = .store v b ptr → c.get ptr ≠ none →
    b = true ∧ ((∃ x, v = .lit x) ∨ ∃ k x, v = .val k ∧ c.get k = some x ∧ x ≠ .top)

/-- Specification: executions, as instruction about to be executed, registers and memory, the facts that the flow functions compute along
the execution, and the callers.  A callee leaves the integer variables of the caller's function alone,
unless `esc`, that is, unless it may write them through pointers. -/
inductive Exec (E : Env) (esc : Prop) : Nat → State → CMap → List Frame → Prop
  | start {n s} (h : n ∈ p.entries) : Exec E esc n s .empty []
  | normal {n d s t c fs i} (r : Exec E esc n s c fs) (h : p.inst n = .plain i) (hd : d ∈ p.succs n) (ok : Ok p E n s c)
      (st : Step p.func E n s t) : Exec E esc d t (p.pass n d (p.normalFlow n c)) fs
  | call {n f m s t c c' fs as} (r : Exec E esc n s c fs) (h : p.inst n = .call as) (hf : f ∈ p.callees n) (hm : m ∈ p.starts f)
      (hc : p.callFlow n f c = some c') (ha : ∀ (i k : Nat) (a : Opd), (p.params f)[i]? = some k → as[i]? = some a → OpdIs s a (t.reg k))
      (hmem : t.mem = s.mem) : Exec E esc m t c' (⟨n, s, c⟩ :: fs)
  | ret {e r v s t c c' fr fs} (x : Exec E esc e s c (fr :: fs)) (h : p.inst e = .ret v) (hf : p.funOf e ∈ p.callees fr.site)
      (hr : r ∈ p.retSites fr.site) (hc : p.returnFlow fr.site e c = some c') (hn : fr.facts.get fr.site = none)
      (hv : ∀ a b, v = some (a, b) → OpdIs s a (t.reg fr.site)) (hreg : ∀ k, k ≠ fr.site → t.reg k = fr.st.reg k)
      (hmem : (∀ a, p.func.inst a = .alloca true → p.funOf a = p.funOf fr.site → t.mem (E.addr a) = fr.st.mem (E.addr a)) ∨
        (esc ∧ t.mem = s.mem)) :
      Exec E esc r t (CMap.insertAll fr.facts c') fs

/-- Specification: the program is well formed, and no pointer is passed to or returned by a function that is followed. -/
structure WF (ty : Nat → Ty) : Prop where
  typed : Typed p.func ty
  succ : ∀ n d, d ∈ p.succs n → p.funOf d = p.funOf n
  start : ∀ f m, m ∈ p.starts f → p.funOf m = f
  site : ∀ n r, r ∈ p.retSites n → p.funOf r = p.funOf n
  par : ∀ f k, k ∈ p.params f → ty k ≠ .ptr ∧ ∀ b, p.func.inst k ≠ .alloca b
  nodup : ∀ f, (p.params f).Nodup
  arg : ∀ n as k, p.inst n = .call as → .val k ∈ as → ty k ≠ .ptr
  res : ∀ e n v, p.inst e = .ret (some (v, true)) → p.funOf e ∈ p.callees n → ty n ≠ .ptr ∧ ∀ k, v = .val k → ty k ≠ .ptr
  call : ∀ n, (p.callees n) ≠ [] → p.isCall n = true

end Phasar.InterConst
