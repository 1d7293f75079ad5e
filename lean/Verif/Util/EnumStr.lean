/-!
# Enumerations and their names

Model of the functions that turn the enumerations of options into strings and back.  The tables are those of the `.def` files; a value
outside of an enumeration (`default:` of a `switch`) is not modelled.
-/
namespace Phasar.EnumStr

/-- `llvm::StringSwitch` with `Case`s and a `Default`, e.g. `DataFlowAnalysisType.cpp:30-34`: the first case that matches wins. -/
def stringSwitch {α : Type} : List (String × α) → α → String → α
  | [], d, _ => d
  | (k, v) :: rows, d, s => if k = s then v else stringSwitch rows d s

/-- The body of the functions from strings, e.g. `DataFlowAnalysisType.cpp:29-43`: names first; command line flags if no name matches. -/
def fromString {α : Type} [DecidableEq α] (rows : List (α × String × String)) (d : α) (s : String) : α :=
  let type := stringSwitch (rows.map fun r => (r.2.1, r.1)) d s
  if type = d then stringSwitch (rows.map fun r => (r.2.2, r.1)) d s else type

/-- The body of the functions to strings, e.g. `DataFlowAnalysisType.cpp:16-27`: a `switch` with a case for each row and one for the value
that is no row. -/
def toStr {α : Type} [DecidableEq α] (rows : List (α × String × String)) (dflt : String) (v : α) : String :=
  match rows.find? fun r => decide (r.1 = v) with
  | some r => r.2.1
  | none => dflt

/-- `enum class DataFlowAnalysisType`, `DataFlowAnalysisType.h:19-23`. -/
inductive DataFlowAnalysisType where
  | None | IFDSUninitializedVariables | IFDSConstAnalysis | IFDSTaintAnalysis | IDEExtendedTaintAnalysis | IFDSTypeAnalysis | IDECSTDIOTypeStateAnalysis | IDEOpenSSLTypeStateAnalysis | IFDSSolverTest | IDELinearConstantAnalysis | IDESolverTest | IDEInstInteractionAnalysis | IntraMonoFullConstantPropagation | IntraMonoSolverTest | InterMonoSolverTest | InterMonoTaintAnalysis
  deriving DecidableEq

/-- The rows of `DataFlowAnalysisType.def:14-28`: value, name, flag. -/
def dfaRows : List (DataFlowAnalysisType × String × String) :=
  [(.IFDSUninitializedVariables, "IFDSUninitializedVariables", "ifds-uninit"),
   (.IFDSConstAnalysis, "IFDSConstAnalysis", "ifds-const"),
   (.IFDSTaintAnalysis, "IFDSTaintAnalysis", "ifds-taint"),
   (.IDEExtendedTaintAnalysis, "IDEExtendedTaintAnalysis", "ide-xtaint"),
   (.IFDSTypeAnalysis, "IFDSTypeAnalysis", "ifds-type"),
   (.IDECSTDIOTypeStateAnalysis, "IDECSTDIOTypeStateAnalysis", "ide-stdio-ts"),
   (.IDEOpenSSLTypeStateAnalysis, "IDEOpenSSLTypeStateAnalysis", "ide-openssl-ts"),
   (.IFDSSolverTest, "IFDSSolverTest", "ifds-solvertest"),
   (.IDELinearConstantAnalysis, "IDELinearConstantAnalysis", "ide-lca"),
   (.IDESolverTest, "IDESolverTest", "ide-solvertest"),
   (.IDEInstInteractionAnalysis, "IDEInstInteractionAnalysis", "ide-iia"),
   (.IntraMonoFullConstantPropagation, "IntraMonoFullConstantPropagation", "intra-mono-fca"),
   (.IntraMonoSolverTest, "IntraMonoSolverTest", "intra-mono-solvertest"),
   (.InterMonoSolverTest, "InterMonoSolverTest", "inter-mono-solvertest"),
   (.InterMonoTaintAnalysis, "InterMonoTaintAnalysis", "inter-mono-taint")]

/-- `toString`, `DataFlowAnalysisType.cpp:16-27`. -/
def DataFlowAnalysisType.toString (v : DataFlowAnalysisType) : String := toStr dfaRows "None" v

/-- `toDataFlowAnalysisType`, `DataFlowAnalysisType.cpp:29-43`. -/
def toDataFlowAnalysisType (s : String) : DataFlowAnalysisType := fromString dfaRows .None s

/-- `enum class CallGraphAnalysisType`, `CallGraphAnalysisType.h:19-23`. -/
inductive CallGraphAnalysisType where
  | Invalid | NORESOLVE | CHA | RTA | DTA | VTA | OTF
  deriving DecidableEq

/-- The rows of `CallGraphAnalysisType.def:14-19`: value, name, flag. -/
def cgaRows : List (CallGraphAnalysisType × String × String) :=
  [(.NORESOLVE, "NORESOLVE", "nores"),
   (.CHA, "CHA", "cha"),
   (.RTA, "RTA", "rta"),
   (.DTA, "DTA", "dta"),
   (.VTA, "VTA", "vta"),
   (.OTF, "OTF", "otf")]

/-- `toString`, `CallGraphAnalysisType.cpp:15-24`. -/
def CallGraphAnalysisType.toString (v : CallGraphAnalysisType) : String := toStr cgaRows "Invalid" v

/-- `toCallGraphAnalysisType`, `CallGraphAnalysisType.cpp:26-40`. -/
def toCallGraphAnalysisType (s : String) : CallGraphAnalysisType := fromString cgaRows .Invalid s

/-- `enum class AliasAnalysisType`, `AliasAnalysisType.h:10-14`. -/
inductive AliasAnalysisType where
  | Invalid | Basic | CFLSteens | CFLAnders | PointsTo
  deriving DecidableEq

/-- The rows of `AliasAnalysisType.def:14-17`: value, name, flag. -/
def aaRows : List (AliasAnalysisType × String × String) :=
  [(.Basic, "Basic", "basic"),
   (.CFLSteens, "CFLSteens", "cflsteens"),
   (.CFLAnders, "CFLAnders", "cflanders"),
   (.PointsTo, "PointsTo", "points-to")]

/-- `toString`, `AliasAnalysisType.cpp:7-16`. -/
def AliasAnalysisType.toString (v : AliasAnalysisType) : String := toStr aaRows "Invalid" v

/-- `toAliasAnalysisType`, `AliasAnalysisType.cpp:18-32`. -/
def toAliasAnalysisType (s : String) : AliasAnalysisType := fromString aaRows .Invalid s

/-- `enum class AnalysisStrategy`, `Strategies.h:23-28`. -/
inductive AnalysisStrategy where
  | None | WholeProgram | DemandDriven | Incremental | ModuleWise | Variational
  deriving DecidableEq

/-- The rows of `Strategies.def:14-18`: value, name, flag. -/
def stratRows : List (AnalysisStrategy × String × String) :=
  [(.WholeProgram, "WholeProgram", "WPA"),
   (.DemandDriven, "DemandDriven", "DD"),
   (.Incremental, "Incremental", "INC"),
   (.ModuleWise, "ModuleWise", "MWA"),
   (.Variational, "Variational", "VAR")]

/-- `toString`, `Strategies.cpp:17-27`. -/
def AnalysisStrategy.toString (v : AnalysisStrategy) : String := toStr stratRows "None" v

/-- `toAnalysisStrategy`, `Strategies.cpp:29-43`. -/
def toAnalysisStrategy (s : String) : AnalysisStrategy := fromString stratRows .None s

/-- `enum class Soundness`, `Soundness.h:24-28`. -/
inductive Soundness where
  | Invalid | Sound | Soundy | Unsound
  deriving DecidableEq

/-- The rows of `Soundness.def:14-16`: value, name, flag. -/
def sndRows : List (Soundness × String × String) :=
  [(.Sound, "Sound", "sound"),
   (.Soundy, "Soundy", "soundy"),
   (.Unsound, "Unsound", "unsound")]

/-- `toString`, `Soundness.cpp:15-25`. -/
def Soundness.toString (v : Soundness) : String := toStr sndRows "Invalid" v

/-- `toSoundness`, `Soundness.cpp:27-41`. -/
def toSoundness (s : String) : Soundness := fromString sndRows .Invalid s

/-- `enum class SpecialMemberFunctionType`, `SpecialMemberFunctionType.h:30-33`. -/
inductive SpecialMemberFunctionType where
  | None | Constructor | Destructor | CopyConstructor | MoveConstructor | CopyAssignment | MoveAssignment
  deriving DecidableEq

/-- The rows of `SpecialMemberFunctionType.def:14-20`. -/
def smfRows : List (SpecialMemberFunctionType × String) :=
  [(.None, "None"), (.Constructor, "Constructor"), (.Destructor, "Destructor"), (.CopyConstructor, "CopyConstructor"),
   (.MoveConstructor, "MoveConstructor"), (.CopyAssignment, "CopyAssignment"), (.MoveAssignment, "MoveAssignment")]

/-- `toString`, `SpecialMemberFunctionType.cpp:15-24`. -/
def SpecialMemberFunctionType.toString (v : SpecialMemberFunctionType) : String :=
  match smfRows.find? fun r => decide (r.1 = v) with
  | some r => r.2
  | none => "None"

/-- `toSpecialMemberFunctionType`, `SpecialMemberFunctionType.cpp:26-35`. -/
def toSpecialMemberFunctionType (s : String) : SpecialMemberFunctionType :=
  stringSwitch (smfRows.map fun r => (r.2, r.1)) .None s

/-- `enum class AliasResult`, `AliasResult.h:20-23`. -/
inductive AliasResult where
  | NoAlias | MayAlias | PartialAlias | MustAlias
  deriving DecidableEq

/-- `toString`, `AliasResult.cpp:18-27` with `AliasResult.def:14-17`. -/
def AliasResult.toString : AliasResult → String
  | .NoAlias => "NoAlias"
  | .MayAlias => "MayAlias"
  | .PartialAlias => "PartialAlias"
  | .MustAlias => "MustAlias"

/-- The cases of the switch in `AliasResult.cpp:30-32`: the macro is defined in line 31, but `AliasResult.def` is not included after it, so
there is none. -/
def aliasCases : List (String × AliasResult) := []

/-- `toAliasResult`, `AliasResult.cpp:29-33`. -/
def toAliasResult (s : String) : AliasResult := stringSwitch aliasCases .MayAlias s

/-- `enum class BinaryDomain` of `BinaryDomain.h` and `to_string`, `BinaryDomain.cpp:15-24`; `true` is `BOTTOM`. -/
def binaryToString (bottom : Bool) : String := if bottom then "BOTTOM" else "TOP"

end Phasar.EnumStr
