import Verif.Store.Seeds
/-!
# Entry points and initial seeds

`include/phasar/DataFlow/IfdsIde/EntryPointUtils.h`, and the `initialSeeds` of the analyses that use it:
`IDETabulationProblem.h` (`createDefaultSeeds`), `IDELinearConstantAnalysis.cpp`, `IDEGeneralizedLCA.cpp`,
`IDEInstInteractionAnalysis.h`, `IFDSTaintAnalysis.cpp`, `IDEExtendedTaintAnalysis.cpp`.
-/
set_option linter.unusedSectionVars false
namespace Phasar.EntryPoints
open Phasar Phasar.Seeds

/-- What is asked of the ICFG, IRDB and CFG: `getAllFunctions`, `getFunction` (`none`: null) and `getStartPointsOf`
(EntryPointUtils.h:33, :46, :50). -/
structure Prog (F N : Type) where
  allFunctions : List F
  getFunction : String → Option F
  startPoints : F → List N

variable {F N D L S : Type} [DecidableEq N] [DecidableEq D]

/-- `detail::forallStartingPoints` over functions, EntryPointUtils.h:23-37; the handler changes a state. -/
def forallFns (p : Prog F N) (h : S → N → S) : List (Option F) → S → S
  | [], s => s
  | none :: fs, s => forallFns p h fs s
  | some f :: fs, s => forallFns p h fs ((p.startPoints f).foldl h s)

/-- `detail::forallStartingPoints` over names, EntryPointUtils.h:39-54; also the two functions at :58-70 that call it. -/
def forallStartingPoints (p : Prog F N) (eps : List String) (h : S → N → S) (s : S) : S :=
  match eps with
  | [e] => if e = "__ALL__" then forallFns p h (p.allFunctions.map some) s else forallFns p h [p.getFunction e] s
  | eps => forallFns p h (eps.map p.getFunction) s

/-- `addSeedsForStartingPoints`, EntryPointUtils.h:72-95. -/
def addSeeds (p : Prog F N) (eps : List String) (s : Seeds N D L) (zero : D) (bot : L) : Seeds N D L :=
  forallStartingPoints p eps (fun s n => addSeed s n zero bot) s

/-- `createDefaultSeeds`, IDETabulationProblem.h:164-176. -/
def defaultSeeds (p : Prog F N) (eps : List String) (zero : D) (bot : L) : Seeds N D L := addSeeds p eps [] zero bot

/-- What is asked of the initializer of a global variable: a `ConstantInt` with its signed value, a `ConstantDataArray`, or another. -/
inductive Init where
  | int (v : Int)
  | dataArray
  | other
deriving DecidableEq, Repr

/-- A global variable of the module, with its initializer if it has one. -/
structure Global (D : Type) where
  id : D
  init : Option Init

/-- Whether `getSExtValue` of a constant is defined: it asserts that the value fits into 64 bits. -/
def fits (v : Int) : Bool := -(2 ^ 63) ≤ v && v < 2 ^ 63

/-- The loop over the globals of the linear constant analysis, IDELinearConstantAnalysis.cpp:414-423; `none`: failed assertion. -/
def lcaGlobals (ofInt : Int → L) (n : N) : List (Global D) → Seeds N D L → Option (Seeds N D L)
  | [], s => some s
  | g :: gs, s =>
    match g.init with
    | some (.int v) => if fits v then lcaGlobals ofInt n gs (addSeed s n g.id (ofInt v)) else none
    | _ => lcaGlobals ofInt n gs s

/-- `IDELinearConstantAnalysis::initialSeeds`, IDELinearConstantAnalysis.cpp:405-427; `none`: failed assertion. -/
def lcaSeeds (p : Prog F N) (eps : List String) (globals : List (Global D)) (zero : D) (bot : L) (ofInt : Int → L) :
    Option (Seeds N D L) :=
  forallStartingPoints p eps (fun s n => s.bind fun s => lcaGlobals ofInt n globals (addSeed s n zero bot)) (some [])

/-- `IDEGeneralizedLCA::initialSeeds`, IDEGeneralizedLCA.cpp:221-242. -/
def glcaSeeds (p : Prog F N) (eps : List String) (globals : List (Global D)) (zero : D) (bot : L) : Seeds N D L :=
  forallStartingPoints p eps (fun s n => globals.foldl (fun s g =>
    match g.init with
    | some (.int _) => addSeed s n g.id bot
    | some .dataArray => addSeed s n g.id bot
    | _ => s) (addSeed s n zero bot)) []

/-- `IDEInstInteractionAnalysisT::initialSeeds`, IDEInstInteractionAnalysis.h:626-653; `args` gives the parameters of the function of a
statement, `gen` is `bvSetFrom(invoke_or_default(EdgeFactGen, GV))`. -/
def iiaSeeds (p : Prog F N) (eps : List String) (globals : List (Global D)) (args : N → List D) (zero : D) (bot empty : L) (gen : D → L) :
    Seeds N D L :=
  forallStartingPoints p eps (fun s n =>
    globals.foldl (fun s g => addSeed s n g.id (gen g.id))
      ((args n).foldl (fun s a => addSeed s n a empty) (addSeed s n zero bot))) []

/-- `IFDSTaintAnalysis::initialSeeds`, IFDSTaintAnalysis.cpp:482-505; the two-argument `addSeed` adds `BOTTOM`, too.  The start points of a
null function are none (LLVMBasedCFG.cpp:130-132). -/
def taintSeeds (p : Prog F N) (eps : List String) (args : N → List D) (taintMainArgs : Bool) (zero : D) (bot : L) : Seeds N D L :=
  let s := addSeeds p eps [] zero bot
  if taintMainArgs && eps.contains "main" then
    match p.getFunction "main" with
    | some f => (p.startPoints f).foldl (fun s n => (args n).foldl (fun s a => addSeed s n a bot) s) s
    | none => s
  else s

/-- `IDEExtendedTaintAnalysis::initialSeeds`, IDEExtendedTaintAnalysis.cpp:40-65; `auto` is `TSF->makeInitialSeeds()` with its facts made flow
facts, `nul` the value `nullptr`. -/
def xtaintSeeds (p : Prog F N) (eps : List String) (auto : List (N × List D)) (nul : L) (zero : D) (bot : L) : Seeds N D L :=
  addSeeds p eps (auto.foldl (fun s q => q.2.foldl (fun s d => addSeed s q.1 d nul) s) []) zero bot

end Phasar.EntryPoints
