import Verif.Base.AMap
/-!
# Summaries of library functions

Model of `include/phasar/PhasarLLVM/DataFlow/IfdsIde/FunctionDataFlowFacts.h`, `LLVMFunctionDataFlowFacts.h`,
`lib/PhasarLLVM/DataFlow/IfdsIde/LLVMFunctionDataFlowFacts.cpp` and of their use in `IFDSTaintAnalysis.cpp:406-434`.
-/
namespace Phasar.LibSummary
open Phasar

/-- `DataFlowFact`, `FunctionDataFlowFacts.h:13-24`: a parameter or the return value.  (Indices are `uint16_t` and
`uint32_t`; here they are natural numbers.) -/
inductive Fact where
  | param (i : Nat)
  | ret
deriving DecidableEq

/-- `ParamaterMappingTy`, `FunctionDataFlowFacts.h:28-29`: what flows from each parameter. -/
abbrev PMap := AMap Nat (List Fact)

/-- `FunctionDataFlowFacts::Fdff` (`FunctionDataFlowFacts.h:73`, keys are names) and `LLVMFunctionDataFlowFacts::LLVMFdff`
(`LLVMFunctionDataFlowFacts.h:72`, keys are functions). -/
abbrev FDFF (K : Type) := AMap K PMap

section
variable {K : Type} [DecidableEq K]

/-- `Fdff[FuncKey]`: the entry, which is made if missing. -/
def entry (m : FDFF K) (f : K) : PMap := (m.get f).getD []

/-- `insertSet`, `FunctionDataFlowFacts.h:34-37` and `LLVMFunctionDataFlowFacts.h:23-32`: `try_emplace`. -/
def insertSet (m : FDFF K) (f : K) (i : Nat) (s : List Fact) : FDFF K :=
  match (entry m f).get i with
  | some _ => m.set f (entry m f)
  | none => m.set f ((entry m f).set i s)

/-- `addElement`, `FunctionDataFlowFacts.h:40-42` and `LLVMFunctionDataFlowFacts.h:34-40`. -/
def addElement (m : FDFF K) (f : K) (i : Nat) (x : Fact) : FDFF K :=
  m.set f ((entry m f).set i (((entry m f).get i).getD [] ++ [x]))

/-- `FunctionDataFlowFacts::getDataFlowFacts`, `FunctionDataFlowFacts.h:45-54`; `none`: the end iterator is dereferenced. -/
def getDataFlowFacts (m : FDFF K) (f : K) (i : Nat) : Option (List Fact) :=
  match m.get f with
  | some t => t.get i
  | none => some []

/-- `LLVMFunctionDataFlowFacts::contains`, `LLVMFunctionDataFlowFacts.h:42-44`. -/
def contains (m : FDFF K) (f : K) : Bool := (m.get f).isSome

/-- `LLVMFunctionDataFlowFacts::getFacts`, `LLVMFunctionDataFlowFacts.h:46-57`: the facts, and the object afterwards
(`Iter->second[Index]` makes an entry). -/
def getFacts (m : FDFF K) (f : K) (i : Nat) : List Fact × FDFF K :=
  match m.get f with
  | some t =>
    match t.get i with
    | some s => (s, m)
    | none => ([], m.set f (t.set i []))
  | none => ([], m)

/-- `LLVMFunctionDataFlowFacts::getFactsForFunction`, `LLVMFunctionDataFlowFacts.h:59-66`. -/
def getFactsForFunction (m : FDFF K) (f : K) : PMap := (m.get f).getD []

/-- `readFromFDFF`, `LLVMFunctionDataFlowFacts.cpp:6-18`; `getFunction` is `Irdb.getFunction`.  (The order of an
`llvm::StringMap` is that of its hash table; here it is that of the list.) -/
def readFromFDFF {F : Type} [DecidableEq F] (getFunction : K → Option F) (m : FDFF K) : FDFF F :=
  m.foldl (fun r p =>
    match getFunction p.1 with
    | some g => (match r.get g with | some _ => r | none => r.set g p.2)
    | none => r) []

/-- A call that changes a summary. -/
inductive Op (K : Type) where
  | ins (f : K) (i : Nat) (s : List Fact)
  | add (f : K) (i : Nat) (x : Fact)

/-- One call. -/
def step (m : FDFF K) : Op K → FDFF K
  | .ins f i s => insertSet m f i s
  | .add f i x => addElement m f i x

/-- A sequence of calls on an empty summary, `FunctionDataFlowFacts.h:31`. -/
def run (ops : List (Op K)) : FDFF K := ops.foldl step []

end

/-! ## The use in the taint analysis -/

section
variable {V : Type} [DecidableEq V]

/-- The facts that flow from the argument at position `j`, `IFDSTaintAnalysis.cpp:417-427`; `none`: `getArgOperand` is given a number
that is too large (an assertion fails). -/
def fromArg (t : PMap) (cs : V) (args : List V) (j : Nat) : Option (List V) :=
  match t.get j with
  | some s => s.mapM fun x => match x with
    | .param k => args[k]?
    | .ret => some cs
  | none => some []

/-- The flow function made from a summary, `IFDSTaintAnalysis.cpp:411-432`, as a list: `nparams` is the number of parameters of the
declaration (`llvm::zip` ends with the shorter list). -/
def libFlow (t : PMap) (cs : V) (args : List V) (nparams : Nat) (src : V) : Option (List V) :=
  (((List.range (min args.length nparams)).filter fun j => decide (args[j]? = some src)).mapM (fromArg t cs args)).map
    fun l => l.flatten ++ [src]

end

/-! ## Specification -/

/-- Specification: the call concerns parameter `i` of `f`. -/
def Op.about {K : Type} [DecidableEq K] (f : K) (i : Nat) : Op K → Bool
  | .ins g j _ => decide (g = f ∧ j = i)
  | .add g j _ => decide (g = f ∧ j = i)

/-- Specification: the function the call concerns. -/
def Op.fn {K : Type} : Op K → K
  | .ins g _ _ => g
  | .add g _ _ => g

/-- Specification: the facts added. -/
def added {K : Type} (l : List (Op K)) : List Fact :=
  l.filterMap fun o => match o with
    | .add _ _ x => some x
    | .ins _ _ _ => none

/-- Specification: what a sequence of calls says about parameter `i` of `f`: a set counts only if it comes first. -/
def told {K : Type} [DecidableEq K] (ops : List (Op K)) (f : K) (i : Nat) : Option (List Fact) :=
  match ops.filter (Op.about f i) with
  | [] => none
  | .ins _ _ s :: l => some (s ++ added l)
  | .add _ _ x :: l => some (x :: added l)

end Phasar.LibSummary
