/-
Bit flags (`include/phasar/Utils/EnumFlags.h`) and the configuration of the IFDS/IDE solver
(`include/phasar/DataFlow/IfdsIde/IFDSIDESolverConfig.h`, `lib/PhasarLLVM/DataFlow/IfdsIde/IFDSIDESolverConfig.cpp`).
-/

namespace Phasar.SolverConfig

/-! ## EnumFlags.h; an enumeration whose underlying type has `w` bits is `BitVec w` -/

/-- `EnumFlagAutoBool::operator bool`, EnumFlags.h:22-24. -/
def toBool {w : Nat} (x : BitVec w) : Bool := x != 0#w

/-- `operator&`, EnumFlags.h:27-31. -/
def andFlags {w : Nat} (l r : BitVec w) : BitVec w := l &&& r

/-- `operator|`, EnumFlags.h:38-42. -/
def orFlags {w : Nat} (l r : BitVec w) : BitVec w := l ||| r

/-- `operator^`, EnumFlags.h:49-53. -/
def xorFlags {w : Nat} (l r : BitVec w) : BitVec w := l ^^^ r

/-- `operator~`, EnumFlags.h:60-63. -/
def notFlags {w : Nat} (r : BitVec w) : BitVec w := ~~~r

/-- `setFlag(This, Flag)`, EnumFlags.h:65-68, by `operator|=`, :44-47. -/
def set {w : Nat} (this flag : BitVec w) : BitVec w := orFlags this flag

/-- `unsetFlag`, EnumFlags.h:69-72, by `operator&=`, :33-36. -/
def unset {w : Nat} (this flag : BitVec w) : BitVec w := andFlags this (notFlags flag)

/-- `setFlag(This, Flag, Set)`, EnumFlags.h:73-80. -/
def setFlag {w : Nat} (this flag : BitVec w) (b : Bool) : BitVec w := if b then set this flag else unset this flag

/-- `hasFlag`, EnumFlags.h:82-85. -/
def hasFlag {w : Nat} (this flag : BitVec w) : Bool := andFlags this flag == flag

/-! ## IFDSIDESolverConfig -/

/-- The options with a getter and a setter, IFDSIDESolverConfig.h:46-58. -/
inductive Opt where
  | followReturnsPastSeeds | autoAddZero | computeValues | recordEdges | emitESG | computePersistedSummaries
deriving DecidableEq, Repr

/-- `SolverConfigOptions`, IFDSIDESolverConfig.h:30-40. -/
def Opt.bits : Opt → BitVec 32
  | .followReturnsPastSeeds => 1
  | .autoAddZero => 2
  | .computeValues => 4
  | .recordEdges => 8
  | .emitESG => 16
  | .computePersistedSummaries => 32

/-- `SolverConfigOptions::None`, IFDSIDESolverConfig.h:31. -/
def optNone : BitVec 32 := 0

/-- `SolverConfigOptions::All`, IFDSIDESolverConfig.h:39. -/
def optAll : BitVec 32 := ~~~0

/-- The default of `Options`, IFDSIDESolverConfig.h:66-67. -/
def dflt : BitVec 32 := orFlags Opt.autoAddZero.bits Opt.computeValues.bits

/-- The getters, IFDSIDESolverConfig.cpp:22-39. -/
def get (c : BitVec 32) (o : Opt) : Bool := hasFlag c o.bits

/-- The setters, IFDSIDESolverConfig.cpp:41-58. -/
def put (c : BitVec 32) (o : Opt) (b : Bool) : BitVec 32 := setFlag c o.bits b

/-- A call that changes a configuration: one of the setters, or `setConfig`, IFDSIDESolverConfig.cpp:60. -/
inductive Call where
  | put (o : Opt) (b : Bool)
  | config (c : BitVec 32)
deriving DecidableEq, Repr

/-- The effect of a call. -/
def step (c : BitVec 32) : Call → BitVec 32
  | .put o b => put c o b
  | .config c' => c'

/-- The effect of a sequence of calls. -/
def run (c : BitVec 32) (cs : List Call) : BitVec 32 := cs.foldl step c

/-- `operator<<` of a `bool` to a stream with or without `std::boolalpha`. -/
def showBool (alpha b : Bool) : String :=
  if alpha then (if b then "true" else "false") else (if b then "1" else "0")

/-- `operator<<`, IFDSIDESolverConfig.cpp:62-73, to a stream with or without `std::boolalpha`; the result is what is written and whether the
stream has `std::boolalpha` afterwards. -/
def print (alpha : Bool) (c : BitVec 32) : List String × Bool :=
  (["IFDSIDESolverConfig:\n", "\tfollowReturnsPastSeeds: ", showBool alpha (get c .followReturnsPastSeeds), "\n",
    "\tautoAddZero: ", showBool true (get c .autoAddZero), "\n",
    "\tcomputeValues: ", showBool true (get c .computeValues), "\n",
    "\trecordEdges: ", showBool true (get c .recordEdges), "\n",
    "\tcomputePersistedSummaries: ", showBool true (get c .computePersistedSummaries), "\n",
    "\temitESG: ", showBool true (get c .emitESG)], true)

end Phasar.SolverConfig
