import Verif.IDE.Props
import Verif.IDE.Table
/-!
# The secure heap propagation

Model of `IDESecureHeapPropagation` (`lib/PhasarLLVM/DataFlow/IfdsIde/Problems/IDESecureHeapPropagation.cpp`, its header under
`include/phasar/PhasarLLVM/DataFlow/IfdsIde/Problems/`), which tracks whether OpenSSL's secure heap is initialised, as a problem
for the IDE solver of `Verif.IDE`, and an independent semantics of programs that initialise and shut down the heap.
-/
set_option linter.unusedSectionVars false
namespace Phasar.SecureHeap
open Phasar JoinLat IDE

/-- `SecureHeapFact` (`IDESecureHeapPropagation.h:20`). -/
inductive Fact where
  | zero
  | initialized
deriving DecidableEq, Repr

/-- `SecureHeapValue` (`IDESecureHeapPropagation.h:21`). -/
inductive Value where
  | top
  | initialized
  | bot
deriving DecidableEq, Repr

/-- `JoinLatticeTraits<SecureHeapValue>::join` (`IDESecureHeapPropagation.h:26-35`). -/
def Value.join (l r : Value) : Value :=
  if l = r ∨ r = .top then l
  else if l = .top then r
  else .bot

/-- `JoinLatticeTraits<SecureHeapValue>` (`IDESecureHeapPropagation.h:23-36`), with the laws a lattice needs. -/
instance : JoinLat Value where
  join := Value.join
  top := .top
  bottom := .bot
  join_assoc := by intro a b c; cases a <;> cases b <;> cases c <;> decide
  join_comm := by intro a b; cases a <;> cases b <;> decide
  join_idem := by intro a; cases a <;> decide
  top_join := by intro a; cases a <;> decide
  bottom_join := by intro a; cases a <;> decide

/-- Edge functions over `SecureHeapValue`: the built-in ones (`EdgeFunctionUtils.h`). The analysis has no edge functions of its
own: `SHPEdgeFn` and `SHPEdgeFunctionComposer` (`IDESecureHeapPropagation.cpp:29-43`, `:48-58`) are never used. -/
abbrev Edge := EF Empty Value

/-- The parts of the program the analysis looks at: the inter-procedural control-flow graph, for each call the function called
directly (`CallBase::getCalledFunction`, `none` for an indirect call), the names of the functions, and the entry points of the
analysis. Statements and functions are numbers. -/
structure Prog where
  icf : ICFG Nat Nat
  direct : Nat → Option Nat
  name : Nat → String
  entries : List Nat

/-- `InitializerFn` (`IDESecureHeapPropagation.h:46-47`). -/
def initializerFn : String := "CRYPTO_secure_malloc_init"
/-- `ShutdownFn` (`IDESecureHeapPropagation.h:48`). -/
def shutdownFn : String := "CRYPTO_secure_malloc_done"

namespace Prog
variable (p : Prog)

/-- The call is a direct call of the function with that name: the tests at `IDESecureHeapPropagation.cpp:90-91` and `:151-152`. -/
def callsNamed (n : Nat) (nm : String) : Bool :=
  match p.direct n with
  | some f => p.name f == nm
  | none => false

/-- `getNormalFlowFunction`, `getCallFlowFunction`, `getRetFlowFunction` (`IDESecureHeapPropagation.cpp:64-81`): `identityFlow`. -/
def identityFlow (d : Fact) : List Fact := [d]

/-- `generateFromZero(SecureHeapFact::INITIALIZED)` (`FlowFunctions.h`, `FlowFunctionTemplates`: the zero fact gives itself and the
generated fact, others give themselves). -/
def generateFromZero (d : Fact) : List Fact :=
  match d with
  | .zero => [.zero, .initialized]
  | .initialized => [.initialized]

/-- `getCallToRetFlowFunction` (`IDESecureHeapPropagation.cpp:83-96`). -/
def callToRetFlow (n : Nat) : Fact → List Fact :=
  if p.callsNamed n initializerFn then generateFromZero else identityFlow

/-- `getCallToRetEdgeFunction` (`IDESecureHeapPropagation.cpp:140-157`). `SHPGenEdgeFn` is `ConstantEdgeFunction` (`:44-45`). -/
def callToRetEdge (n : Nat) (callNode retNode : Fact) : Edge :=
  if callNode = .zero ∧ retNode ≠ .zero then .const .initialized
  else if callNode ≠ .zero ∧ p.callsNamed n shutdownFn then .const .bot
  else .id

/-- `createDefaultSeeds` (`IDETabulationProblem.h:167-175`): zero with the bottom value at the start of every entry point. -/
def seeds : List (Nat × List (Fact × Value)) :=
  (p.entries.flatMap p.icf.starts).map fun sp => (sp, [(Fact.zero, Value.bot)])

/-- The whole problem: `IDESecureHeapPropagation.cpp:60-165`. The edge functions other than the call-to-return ones are
identities (`:120-138`). There are no summaries (`:97-101`; `getSummaryEdgeFunction` (`:159-165`) is never asked). `c` gives the size
bound of joins and whether constants are stored inline, `lt` is the comparison of edge-function handles. -/
def problem (c : EFCfg Empty Value) (lt : Edge → Edge → Bool) : Problem Nat Fact Nat Value Edge where
  icf := p.icf
  alg := EF.alg c lt
  normalFlow := fun _ _ => identityFlow
  callFlow := fun _ _ => identityFlow
  retFlow := fun _ _ _ _ => identityFlow
  ctrFlow := fun n _ => p.callToRetFlow n
  summaryFlow := fun _ _ => none
  normalEdge := fun _ _ _ _ => .id
  callEdge := fun _ _ _ _ => .id
  retEdge := fun _ _ _ _ _ _ => .id
  ctrEdge := fun n d _ d' => p.callToRetEdge n d d'
  sumEdge := fun _ _ _ _ => .id
  zero := .zero
  seeds := p.seeds
  followReturnsPastSeeds := false

/-! ## What programs do -/

/-- What happens to the secure heap. -/
inductive Ev where
  | init
  | done
deriving DecidableEq, Repr

/-- What a call of the function does to the heap, by its name. -/
def evOf (f : Nat) : List Ev :=
  if p.name f = initializerFn then [.init]
  else if p.name f = shutdownFn then [.done]
  else []

/-- A state of the program: pending calls, current statement, and what has happened to the heap so far. -/
structure Conf where
  stk : List Nat
  n : Nat
  tr : List Ev

/-- A step. With `skip`, a call that leaves the heap alone may also be stepped over although the called function has a body:
that is as if the call had returned without doing anything to the heap. -/
inductive Step (skip : Bool) : Conf → Conf → Prop
  | normal {stk n tr n'} : p.icf.isCall n = false → n' ∈ p.icf.succs n → Step skip ⟨stk, n, tr⟩ ⟨stk, n', tr⟩
  /-- Enter a function that has a body. -/
  | enter {stk n tr g sp} : p.icf.isCall n = true → g ∈ p.icf.callees n → sp ∈ p.icf.starts g →
      Step skip ⟨stk, n, tr⟩ ⟨n :: stk, sp, tr⟩
  | ret {stk c n tr r} : p.icf.isCall n = false → p.icf.isExit n = true → r ∈ p.icf.retSites c →
      Step skip ⟨c :: stk, n, tr⟩ ⟨stk, r, tr⟩
  /-- Call a function without a body, which does to the heap what its name says. -/
  | ext {stk n tr g r} : p.icf.isCall n = true → g ∈ p.icf.callees n → p.icf.starts g = [] → r ∈ p.icf.retSites n →
      Step skip ⟨stk, n, tr⟩ ⟨stk, r, tr ++ p.evOf g⟩
  /-- A call for which no callee is known. -/
  | unknown {stk n tr r} : p.icf.isCall n = true → p.icf.callees n = [] → r ∈ p.icf.retSites n →
      Step skip ⟨stk, n, tr⟩ ⟨stk, r, tr⟩
  | over {stk n tr r} : skip = true → p.icf.isCall n = true → (∀ g ∈ p.icf.callees n, p.evOf g = []) →
      r ∈ p.icf.retSites n → Step skip ⟨stk, n, tr⟩ ⟨stk, r, tr⟩

/-- Zero or more steps. -/
inductive Steps (skip : Bool) : Conf → Conf → Prop
  | refl (c) : Steps skip c c
  | tail {a b c} : Steps skip a b → p.Step skip b c → Steps skip a c

/-- An execution from an entry point arrives at `n`, `tr` having happened to the heap. -/
def Exec (skip : Bool) (n : Nat) (tr : List Ev) : Prop :=
  ∃ f ∈ p.entries, ∃ sp ∈ p.icf.starts f, ∃ stk, p.Steps skip ⟨[], sp, []⟩ ⟨stk, n, tr⟩

end Prog

open Prog

/-- The state of the secure heap. -/
inductive Heap where
  | never
  | on
  | down
deriving DecidableEq, Repr

/-- `CRYPTO_secure_malloc_init` turns the heap on (again); `CRYPTO_secure_malloc_done` turns it off if it is on. -/
def Heap.step : Heap → Ev → Heap
  | _, .init => .on
  | .on, .done => .down
  | h, .done => h

/-- The state of the heap after all that has happened. -/
def heap (tr : List Ev) : Heap := tr.foldl Heap.step .never

/-- At some point the heap was initialised and at some later point shut down. -/
def ShutAfterInit (tr : List Ev) : Prop := ∃ a b c, tr = a ++ Ev.init :: (b ++ Ev.done :: c)

/-- What is assumed about the program: a consistent control-flow graph, the callee of a direct call is the function called,
initialisation and shutdown are library functions without a body. -/
structure Prog.WF (p : Prog) : Prop where
  icf : p.icf.WFV
  uniq : p.icf.UniqueStart
  direct : ∀ n f, p.direct n = some f → p.icf.callees n = [f]
  decl : ∀ f, p.evOf f ≠ [] → p.icf.starts f = []

/-- Initialisation and shutdown are only called directly. -/
def Prog.DirectOnly (p : Prog) : Prop := ∀ n g, g ∈ p.icf.callees n → p.evOf g ≠ [] → p.direct n = some g

end Phasar.SecureHeap
