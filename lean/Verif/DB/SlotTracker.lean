/-!
# Model of `ModulesToSlotTracker`

Models `lib/PhasarLLVM/Utils/LLVMShorthands.cpp:495-556`: the table of slot trackers, one per module, with reference counts.
Modules are identities (`none`: the null pointer).  `MToST` is a map from modules to owning pointers to wrappers; a wrapper has a
reference count, which is `none` when its storage holds no wrapper any more.  Failing assertions, `report_fatal_error`, reading a
null pointer and reading an indeterminate count are `none` as results.  The mutex is not modelled: every function is atomic.
-/
namespace Phasar.DB

/-- `MToST`, `LLVMShorthands.cpp:502-504`: absent (`none`), a null pointer (`some none`), or a wrapper with its `RefCount`
(`none`: indeterminate), `LLVMShorthands.cpp:495-500`. -/
abbrev MST (M : Type) := M → Option (Option (Option Nat))

variable {M : Type} [DecidableEq M]

/-- Writing an entry of the table. -/
def MST.set (t : MST M) (m : M) (e : Option (Option (Option Nat))) : MST M := fun n => if n = m then e else t n

/-- `getSlotTrackerForModule`, `LLVMShorthands.cpp:508-519`: `MToST[M]` enters a null pointer if there is nothing; `isNull` is
`M == nullptr`. -/
def getSlotTracker (isNull : M → Bool) (t : MST M) (m : M) : Option (MST M) :=
  match t m with
  | some (some _) => some t
  | _ => if isNull m then some (t.set m (some (some (some 1)))) else none

/-- `setMSTForModule`, `LLVMShorthands.cpp:521-529`. -/
def setMST (t : MST M) (m : M) : Option (MST M) :=
  match t m with
  | none => some (t.set m (some (some (some 1))))
  | some (some (some n)) => some (t.set m (some (some (some (n + 1)))))
  | _ => none

/-- `updateMSTForModule`, `LLVMShorthands.cpp:531-541`: the wrapper is destroyed, and a `ModuleSlotTracker` - not a wrapper - is
constructed in its storage: the count is indeterminate from then on. -/
def updateMST (t : MST M) (m : M) : Option (MST M) :=
  match t m with
  | some (some _) => some (t.set m (some (some none)))
  | _ => none

/-- `deleteMSTForModule`, `LLVMShorthands.cpp:543-554`. -/
def deleteMST (t : MST M) (m : M) : Option (MST M) :=
  match t m with
  | none => some t
  | some (some (some n)) => if n - 1 = 0 then some (t.set m none) else some (t.set m (some (some (some (n - 1)))))
  | _ => none

/-- The calls: the constructors of a database and the zero value register a module (`LLVMProjectIRDB.cpp:74`, `135`, `148`, `167`;
`LLVMZeroValue.cpp:25`), the destructor of a database takes the registration back (`LLVMProjectIRDB.cpp:171-175`),
`GlobalCtorsDtorsModel.cpp:342` updates it, printing a value asks for the tracker (`LLVMShorthands.cpp:145-148`). -/
inductive MOp (M : Type) where
  | create (m : M)
  | destroy (m : M)
  | update (m : M)
  | get (m : M)
deriving DecidableEq

/-- One call. -/
def mstep (isNull : M → Bool) (t : MST M) : MOp M → Option (MST M)
  | .create m => setMST t m
  | .destroy m => deleteMST t m
  | .update m => updateMST t m
  | .get m => getSlotTracker isNull t m

/-! ### Specification -/

/-- Specification: how many registrations of a module are not taken back: the owners alive. -/
def owners (m : M) : List (MOp M) → Nat
  | [] => 0
  | .create n :: os => owners m os + if n = m then 1 else 0
  | .destroy n :: os => owners m os - if n = m then 1 else 0
  | _ :: os => owners m os

/-- Specification: a history, latest call first, as the classes of PhASAR make it: no module is null but in `get`; a database is
destroyed after it was created; a module is updated and used only while an owner lives, or it is null. -/
def Legal (isNull : M → Bool) : List (MOp M) → Prop
  | [] => True
  | .create m :: os => isNull m = false ∧ Legal isNull os
  | .destroy m :: os => isNull m = false ∧ 0 < owners m os ∧ Legal isNull os
  | .update m :: os => isNull m = false ∧ 0 < owners m os ∧ Legal isNull os
  | .get m :: os => (isNull m = true ∨ 0 < owners m os) ∧ Legal isNull os

/-- The state after a history, latest call first. -/
def mrun (isNull : M → Bool) : List (MOp M) → Option (MST M)
  | [] => some (fun _ => none)
  | o :: os => (mrun isNull os).bind (fun t => mstep isNull t o)

end Phasar.DB
