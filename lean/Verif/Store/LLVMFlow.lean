import Verif.Store.FlowFns
/-!
# Flow functions for LLVM (`include/phasar/PhasarLLVM/DataFlow/IfdsIde/LLVMFlowFunctions.h`)

The mapping functions for call sites and the strong updates at stores.  Facts are `const llvm::Value *` (type `A` here), i.e.
the parameter `FactConstructor` is the conversion of a value to itself.
-/
set_option linter.unusedSectionVars false
namespace Phasar.FlowFn
open Phasar

variable {A : Type} [DecidableEq A]

/-- What the flow functions look at in the IR: the zero value (`LLVMZeroValue.h:53-58`) and `llvm::isa<llvm::Constant>`, which
is true for global variables, constants, constant expressions, and the zero value (a `GlobalVariable`, `LLVMZeroValue.h:35`). -/
structure IR (A : Type) where
  zero : A
  isConst : A → Bool

/-- A function as callee: `isDeclaration()`, its parameters, whether the first one has the attribute `sret`, and the allocas
of type `[n x %struct.__va_list_tag]` (`LLVMFlowFunctions.h:203-218`). -/
structure Callee (A : Type) where
  decl : Bool
  params : List A
  sret : Bool
  vaLists : List A

/-- `mapFactsAlongsideCallSite` (`LLVMFlowFunctions.h:56-108`). -/
def mapFactsAlongsideCallSite (ir : IR A) (args : List A) (propArgs : A → Bool) (globals : Bool) : FF A := fun s =>
  if s = ir.zero then FSet.ofList [s]
  else if ir.isConst s then (if globals then FSet.ofList [s] else [])
  else if s ∈ args then (if propArgs s then FSet.ofList [s] else [])
  else FSet.ofList [s]

/-- The loop over the parameters with the iterators `ParamIt` and `ArgIt` (`LLVMFlowFunctions.h:177-192, 299-308`): pairs of
parameter and argument, and the remaining arguments.  Fewer arguments than parameters violate the assertions at `:174-175,
296-297`; the model stops at the shorter list. -/
def paramArgs (params args : List A) : List (A × A) × List A := (params.zip args, args.drop params.length)

/-- `mapFactsToCallee` (`LLVMFlowFunctions.h:132-234`). -/
def mapFactsToCallee (ir : IR A) (args : List A) (f : Callee A) (prop : A → A → Bool) (globals zeroToCallee : Bool) :
    FF A := fun s =>
  if f.decl then []
  else
    let res := if zeroToCallee && decide (s = ir.zero) then FSet.insert [] s
      else if globals && decide (s ≠ ir.zero) && ir.isConst s then FSet.insert [] s
      else []
    let skip := if f.sret && !f.params.isEmpty then 1 else 0
    let pa := paramArgs (f.params.drop skip) (args.drop skip)
    let res := pa.1.foldl (fun r p => if prop p.2 s then FSet.insert r p.1 else r) res
    if pa.2.any (fun a => prop a s) then f.vaLists.foldl FSet.insert res else res

/-- `mapFactsToCaller` (`LLVMFlowFunctions.h:256-360`) at the exit statement `ret rv` (`none`: not a return with a value) of
the function `f`; without post-processing. -/
def mapFactsToCaller (ir : IR A) (call : A) (args : List A) (f : Callee A) (rv : Option A) (propParam propRet : A → A → Bool)
    (globals zeroToCaller : Bool) : FF A := fun s =>
  let res := if zeroToCaller && decide (s = ir.zero) then FSet.insert [] s
    else if globals && ir.isConst s then FSet.insert [] s
    else []
  let pa := paramArgs f.params args
  let res := pa.1.foldl (fun r p => if propParam p.1 s then FSet.insert r p.2 else r) res
  let res := if f.vaLists.any (fun a => propParam a s) then pa.2.foldl FSet.insert res else res
  match rv with
  | some v => if propRet v s then FSet.insert res call else res
  | none => res

/-- `strongUpdateStore(Store, Pred)` (`LLVMFlowFunctions.h:373-432`): `ptr` is the pointer operand, `base` the pointer operand
without casts. -/
def strongUpdateStoreIf (ptr base : A) (pred : A → Bool) : FF A := fun s =>
  if base ≠ ptr then
    if s = ptr ∨ s = base then [] else if pred s then FSet.ofList [s, ptr, base] else FSet.ofList [s]
  else
    if s = ptr then [] else if pred s then FSet.ofList [s, ptr] else FSet.ofList [s]

/-- `strongUpdateStore(Store)` (`LLVMFlowFunctions.h:452-502`): `val` is the value operand. -/
def strongUpdateStore (val ptr base : A) : FF A := fun s =>
  if base ≠ ptr then
    if s = ptr ∨ s = base then [] else if s = val then FSet.ofList [s, ptr, base] else FSet.ofList [s]
  else
    if s = ptr then [] else if s = val then FSet.ofList [s, ptr] else FSet.ofList [s]

end Phasar.FlowFn
