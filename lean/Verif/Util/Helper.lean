/-!
# The helper analyses

Model of `include/phasar/PhasarLLVM/HelperAnalyses.h` and `lib/PhasarLLVM/HelperAnalyses.cpp`: objects that are made when first asked
for.  An address is a number that is given out once.
-/
namespace Phasar.Helper

/-- Where the module comes from, `HelperAnalyses.cpp:50-51, :57-58, :65`: a file, or a given module and whether it is preprocessed. -/
inductive Source where
  | file (name : String)
  | given (module : Nat) (preprocess : Bool)
deriving DecidableEq

/-- The arguments of the constructor, `HelperAnalyses.h:36-46` and `HelperAnalysisConfig.h:22-38`.  JSON values, enumerators of
`AliasAnalysisType` and `Soundness` are numbers; of `CallGraphAnalysisType` it matters whether it is `OTF` (`otf`, beside the number
`cgTy`). -/
structure Config where
  src : Source
  pts : Option Nat
  ptaTy : Nat
  lazyPts : Bool
  cg : Option Nat
  entries : List String
  cgTy : Nat
  otf : Bool
  sound : Nat
  autoGlobals : Bool
deriving DecidableEq

/-- What an object is made from; objects are given by their addresses. -/
inductive Obj where
  | irdb (src : Source)
  /-- From JSON, `HelperAnalyses.cpp:73`. -/
  | aliasJson (irdb json : Nat)
  /-- Computed, `HelperAnalyses.cpp:75-76`. -/
  | alias (irdb : Nat) (lazyPts : Bool) (ty : Nat)
  | th (irdb : Nat)
  /-- From JSON, `HelperAnalyses.cpp:92`. -/
  | icfgJson (irdb json : Nat)
  /-- Computed, `HelperAnalyses.cpp:94-97`. -/
  | icfg (irdb cgTy : Nat) (entries : List String) (th : Nat) (pt : Option Nat) (sound : Nat) (autoGlobals : Bool)
  | cfg
deriving DecidableEq

/-- The members, `HelperAnalyses.h:67-87`; `entries` is emptied by `std::move`; `made` are the objects made so far, the last
first: they are the heap. -/
structure State where
  irdb : Option Nat
  pt : Option Nat
  th : Option Nat
  icf : Option Nat
  cfg : Option Nat
  entries : List String
  made : List Obj
deriving DecidableEq

/-- `std::make_unique`: a new object; its address is the number of objects made before. -/
def make (s : State) (o : Obj) : Nat × State := (s.made.length, { s with made := o :: s.made })

/-- `getProjectIRDB`, `HelperAnalyses.cpp:63-68`; the source is a file, as a given module is set by the constructor. -/
def getIRDB (c : Config) (s : State) : Nat × State :=
  match s.irdb with
  | some a => (a, s)
  | none => ((make s (.irdb c.src)).1, { (make s (.irdb c.src)).2 with irdb := some (make s (.irdb c.src)).1 })

/-- The constructors, `HelperAnalyses.cpp:12-59`: a given module makes the database at once. -/
def init (c : Config) : State :=
  let s : State := ⟨none, none, none, none, none, c.entries, []⟩
  match c.src with
  | .file _ => s
  | .given _ _ => (getIRDB c s).2

/-- `getAliasInfo`, `HelperAnalyses.cpp:70-80`. -/
def getAlias (c : Config) (s : State) : Nat × State :=
  match s.pt with
  | some a => (a, s)
  | none =>
    let d := getIRDB c s
    let r := make d.2 (match c.pts with
      | some j => .aliasJson d.1 j
      | none => .alias d.1 c.lazyPts c.ptaTy)
    (r.1, { r.2 with pt := some r.1 })

/-- `getTypeHierarchy`, `HelperAnalyses.cpp:82-87`. -/
def getTH (c : Config) (s : State) : Nat × State :=
  match s.th with
  | some a => (a, s)
  | none =>
    let d := getIRDB c s
    let r := make d.2 (.th d.1)
    (r.1, { r.2 with th := some r.1 })

/-- `CGTy == OTF ? &getAliasInfo() : nullptr`, `HelperAnalyses.cpp:96`. -/
def getAliasIf (c : Config) (s : State) : Option Nat × State :=
  if c.otf then (some (getAlias c s).1, (getAlias c s).2) else (none, s)

/-- `getICFG`, `HelperAnalyses.cpp:89-102`.  (The order in which C++ evaluates the arguments is unspecified; here it is from left to
right, which decides only the addresses.) -/
def getICFG (c : Config) (s : State) : Nat × State :=
  match s.icf with
  | some a => (a, s)
  | none =>
    match c.cg with
    | some j =>
      let d := getIRDB c s
      let r := make d.2 (.icfgJson d.1 j)
      (r.1, { r.2 with icf := some r.1 })
    | none =>
      let d := getIRDB c s
      let t := getTH c d.2
      let p := getAliasIf c t.2
      let r := make { p.2 with entries := [] } (.icfg d.1 c.cgTy p.2.entries t.1 p.1 c.sound c.autoGlobals)
      (r.1, { r.2 with icf := some r.1 })

/-- `getCFG`, `HelperAnalyses.cpp:104-112`. -/
def getCFG (s : State) : Nat × State :=
  match s.cfg with
  | some a => (a, s)
  | none =>
    match s.icf with
    | some a => (a, s)
    | none =>
      let r := make s .cfg
      (r.1, { r.2 with cfg := some r.1 })

/-- The getters, `HelperAnalyses.h:61-65`. -/
inductive Query where
  | irdb | alias | th | icfg | cfg
deriving DecidableEq

/-- A call of a getter. -/
def ask (c : Config) (s : State) : Query → Nat × State
  | .irdb => getIRDB c s
  | .alias => getAlias c s
  | .th => getTH c s
  | .icfg => getICFG c s
  | .cfg => getCFG s

/-- Calls of getters, after the constructor. -/
def after (c : Config) (qs : List Query) : State := qs.foldl (fun s q => (ask c s q).2) (init c)

/-- The object at an address. -/
def State.at (s : State) (a : Nat) : Option Obj := s.made.reverse[a]?

/-- The kind of an object: the getter that is declared to return it, `HelperAnalyses.h:61-65`. -/
def Obj.kind : Obj → Query
  | .irdb _ => .irdb
  | .aliasJson _ _ => .alias
  | .alias _ _ _ => .alias
  | .th _ => .th
  | .icfgJson _ _ => .icfg
  | .icfg _ _ _ _ _ _ _ => .icfg
  | .cfg => .cfg

/-- The members in the order in which they are destroyed, the reverse of `HelperAnalyses.h:68-72`. -/
def destroyed (s : State) : List Nat := [s.cfg, s.icf, s.th, s.pt, s.irdb].filterMap id

/-- The objects that an object refers to. -/
def Obj.refs : Obj → List Nat
  | .irdb _ => []
  | .aliasJson i _ => [i]
  | .alias i _ _ => [i]
  | .th i => [i]
  | .icfgJson i _ => [i]
  | .icfg i _ _ t p _ _ => i :: t :: p.toList
  | .cfg => []

end Phasar.Helper
