import Verif.Base.AMap
import Verif.Base.FSet
/-!
# Model of taint configurations

Models `lib/PhasarLLVM/TaintConfig/TaintConfigBase.cpp` (reading a configuration from JSON),
`lib/PhasarLLVM/TaintConfig/LLVMTaintConfig.cpp` (marking the values of a module; queries) with the annotation helpers of
`lib/PhasarLLVM/Utils/Annotation.cpp`, and `include/phasar/PhasarLLVM/TaintConfig/TaintConfigUtilities.h`.

Names are lists of characters.  Error messages and logging are left out.
-/
namespace Phasar.TaintCfg

/-- Names. -/
abbrev Str := List Char

/-- `TaintCategory`, `TaintConfigBase.h:28`. -/
inductive Cat where
  | none | source | sink | sanitizer
deriving DecidableEq, Repr

/-- `toTaintCategory`, `TaintConfigBase.cpp:31-37`: `CaseLower` compares without regard to ASCII case. -/
def toCat (s : Str) : Cat :=
  let l := s.map Char.toLower
  if l = "source".toList then .source
  else if l = "sink".toList then .sink
  else if l = "sanitizer".toList then .sanitizer
  else .none

/-- `FunctionData`, `TaintConfigData.h:20-29`. -/
structure FunData where
  name : Str := []
  ret : Cat := .none
  src : List Nat := []
  snk : List Nat := []
  san : List Nat := []
  all : Bool := false
deriving DecidableEq, Repr

/-- `VariableData`, `TaintConfigData.h:31-38`.  `line` is a `size_t`. -/
structure VarData where
  line : Nat := 0
  name : Str := []
  scope : Str := []
  cat : Cat := .none
deriving DecidableEq, Repr

/-- `TaintConfigData`, `TaintConfigData.h:40-43`. -/
structure Data where
  funs : List FunData := []
  vars : List VarData := []
deriving DecidableEq, Repr

/-! ## Reading JSON -/

/-- `nlohmann::json`, as read from a file (`TaintConfigBase.cpp:168`).  Simplification: no floating-point numbers. -/
inductive Json where
  | null
  | bool (b : Bool)
  | num (i : Int)
  | str (s : Str)
  | arr (l : List Json)
  | obj (l : List (Str × Json))

namespace Json

/-- `find(key)`, for instance `TaintConfigBase.cpp:44`: nothing if the value is not an object. -/
def find (k : Str) : Json → Option Json
  | .obj l => (l.find? (fun e => e.1 = k)).map Prod.snd
  | _ => .none

/-- What a range-based `for` visits, for instance `TaintConfigBase.cpp:63`: the elements of an array, the values of an
object, nothing of `null`, and any other value itself. -/
def elems : Json → List Json
  | .null => []
  | .arr l => l
  | .obj l => l.map Prod.snd
  | x => [x]

/-- `get<std::string>()`, for instance `TaintConfigBase.cpp:45`; throws if the value is not a string. -/
def getStr : Json → Option Str
  | .str s => some s
  | _ => .none

/-- `get<uint32_t>()`, for instance `TaintConfigBase.cpp:64`: a `static_cast` of numbers and Booleans; throws
otherwise. -/
def getU32 : Json → Option Nat
  | .num i => some (i % 4294967296).toNat
  | .bool b => some (if b then 1 else 0)
  | _ => .none

/-- `Data->Line = get<int>()`, `TaintConfigBase.cpp:104`: cast to `int`, then to `size_t`. -/
def getLine : Json → Option Nat
  | .num i => some ((i.bmod 4294967296) % 18446744073709551616).toNat
  | .bool b => some (if b then 1 else 0)
  | _ => .none

/-- The string value `x`, `Curr == "all"`, `TaintConfigBase.cpp:74`. -/
def isAll : Json → Bool
  | .str s => s = "all".toList
  | _ => false

/-- `is_number()`, `TaintConfigBase.cpp:72`. -/
def isNum : Json → Bool
  | .num _ => true
  | _ => false

end Json

/-- The loops that read indices, `TaintConfigBase.cpp:63-66` and `:86-89`; `none` is an exception. -/
def readNums : List Json → Option (List Nat)
  | [] => some []
  | x :: xs => do
    let n ← x.getU32
    let r ← readNums xs
    return n :: r

/-- The loop that reads sinks, `TaintConfigBase.cpp:71-82`. -/
def readSinks : List Json → Option (List Nat × Bool)
  | [] => some ([], false)
  | x :: xs =>
    if x.isNum then do
      let n ← x.getU32
      let r ← readSinks xs
      return (n :: r.1, r.2)
    else if x.isAll then do
      let r ← readSinks xs
      return (r.1, true)
    else none

/-- The elements of the entry `k`, if there is one. -/
def entries (k : Str) (j : Json) : List Json :=
  match j.find k with
  | some x => x.elems
  | none => []

/-- A category that is given has to be one of the three, `TaintConfigBase.cpp:49-56` and `:118-125`. -/
def readCat (k : Str) (j : Json) : Option Cat :=
  match j.find k with
  | none => some .none
  | some x => do
    let s ← x.getStr
    if toCat s = .none then none else some (toCat s)

/-- A string that is given, `TaintConfigBase.cpp:44-47`, `:108-116`. -/
def readStr (k : Str) (j : Json) : Option Str :=
  match j.find k with
  | none => some []
  | some x => x.getStr

/-- `loadFunc`, `TaintConfigBase.cpp:39-96`; the outer `none` is an exception, the inner one an empty description. -/
def loadFunc (j : Json) : Option (Option FunData) := do
  let name ← readStr "name".toList j
  let ret ← readCat "ret".toList j
  let params := (j.find "params".toList).getD .null
  let ss := entries "source".toList params
  let ks := entries "sink".toList params
  let zs := entries "sanitizer".toList params
  let src ← readNums ss
  let snk ← readSinks ks
  let san ← readNums zs
  if (j.find "name".toList).isSome || (j.find "ret".toList).isSome || !ss.isEmpty || !ks.isEmpty || !zs.isEmpty then
    return some { name := name, ret := ret, src := src, snk := snk.1, san := san, all := snk.2 }
  else return none

/-- The line that is given, `TaintConfigBase.cpp:103-106`. -/
def readLine (j : Json) : Option Nat :=
  match j.find "line".toList with
  | none => some 0
  | some x => x.getLine

/-- `loadVar`, `TaintConfigBase.cpp:98-133`. -/
def loadVar (j : Json) : Option (Option VarData) := do
  let line ← readLine j
  let name ← readStr "name".toList j
  let scope ← readStr "scope".toList j
  let cat ← readCat "cat".toList j
  if (j.find "line".toList).isSome || (j.find "name".toList).isSome || (j.find "scope".toList).isSome ||
      (j.find "cat".toList).isSome then
    return some { line := line, name := name, scope := scope, cat := cat }
  else return none

/-- The loops of `loadFunctions` and `loadVariables`, `TaintConfigBase.cpp:142-146` and `:157-161`. -/
def loadAll {A : Type} (f : Json → Option (Option A)) : List Json → Option (List A)
  | [] => some []
  | x :: xs => do
    let a ← f x
    let r ← loadAll f xs
    return match a with
      | some a => a :: r
      | none => r

/-- What `config/TaintConfigSchema.json` demands of the value of a key of the top-level object.  The schemas given under
`properties` and the names under `required` of `functions` and `variables` apply to objects; both have to be arrays, so they demand
nothing. -/
def entryOk (k : Str) (v : Json) : Bool :=
  if k = "name".toList then match v with | .str _ => true | _ => false
  else if k = "version".toList then v.isNum
  else if k = "functions".toList ∨ k = "variables".toList then match v with | .arr _ => true | _ => false
  else true

/-- `Validator.validate`, `TaintConfigBase.cpp:172`, with `config/TaintConfigSchema.json`. -/
def valid : Json → Bool
  | .obj l => l.all (fun e => entryOk e.1 e.2)
  | _ => false

/-- `parseTaintConfig`, `TaintConfigBase.cpp:163-181`, from the parsed file on; `none` is an exception. -/
def parse (j : Json) : Option Data :=
  if valid j then do
    let fs ← loadAll loadFunc (entries "functions".toList j)
    let vs ← loadAll loadVar (entries "variables".toList j)
    return ⟨fs, vs⟩
  else none

/-! ## Marking values -/

/-- A subprogram of the debug information: `isDistinct`, `getName`, `getLinkageName` (`LLVMTaintConfig.cpp:37-40`). -/
structure Sub where
  distinct : Bool
  name : Str
  linkage : Str

/-- Instructions, as far as `LLVMTaintConfig.cpp:155-178` looks at them: `DbgDeclareInst` with the name and line of its variable and
its address, `GetElementPtrInst` with its source element type if that is a struct and the name of the instruction. -/
inductive Inst where
  | dbgDeclare (name : Str) (line : Nat) (addr : Nat)
  | gep (st : Option Nat) (name : Str)
  | other

/-- The module.  Functions, values and struct types are numbered; an instruction is a value.  `subs` are `DIF.subprograms()`, `types` the
names of `DIF.types()` that are structures (`LLVMTaintConfig.cpp:139-141`), `structs` the identified struct types (`:142`), `lookup` is
`getFunction`, `params` are the arguments of a function, `users` the users of a function (`:118`), `isCall` is `isa<CallBase>`. -/
structure Module where
  funs : List Nat
  subs : List Sub
  types : List Str
  structs : List Nat
  lookup : Str → Option Nat
  params : Nat → List Nat
  users : Nat → List Nat
  isCall : Nat → Bool
  insts : Nat → List Nat
  inst : Nat → Inst

/-- The sets of `LLVMTaintConfig`, `LLVMTaintConfig.h:101-103`. -/
structure Cfg where
  src : List Nat := []
  snk : List Nat := []
  san : List Nat := []

/-- `addTaintCategory(Val, TaintCategory)`, `LLVMTaintConfig.cpp:282-298`. -/
def Cfg.add (c : Cfg) (v : Nat) : Cat → Cfg
  | .source => { c with src := FSet.insert c.src v }
  | .sink => { c with snk := FSet.insert c.snk v }
  | .sanitizer => { c with san := FSet.insert c.san v }
  | .none => c

/-- `addTaintCategory(Val, StringRef)`, `LLVMTaintConfig.cpp:272-280`. -/
def Cfg.addStr (c : Cfg) (v : Nat) (s : Str) : Cfg := c.add v (toCat s)

/-- A loop that gives several values the same category. -/
def Cfg.addAll (c : Cfg) (vs : List Nat) (k : Cat) : Cfg := vs.foldl (fun c v => c.add v k) c

/-- The loop over the subprograms in `findAllFunctionDefs`, `LLVMTaintConfig.cpp:36-42`. -/
def debugDefs (M : Module) (n : Str) : List (Option Nat) :=
  (M.subs.filter (fun s => s.distinct && !s.linkage.isEmpty && (decide (s.name = n) || decide (s.linkage = n)))).map
    (fun s => M.lookup s.linkage)

/-- `findAllFunctionDefs`, `LLVMTaintConfig.cpp:29-61`: the functions, as possibly null pointers; `none` if a null pointer is
dereferenced when the candidates are listed. -/
def findDefs (M : Module) (n : Str) : Option (List (Option Nat)) :=
  match debugDefs M n with
  | [] => some (match M.lookup n with | some f => [some f] | none => [])
  | [x] => some [x]
  | l => if l.all Option.isSome then some l else none

/-- The parameters of the indices that are not out of bounds, `LLVMTaintConfig.cpp:78-89`, `:90-99`, `:107-116`. -/
def byIndex (M : Module) (f : Nat) (is : List Nat) : List Nat := is.filterMap (fun i => (M.params f)[i]?)

/-- The body of the loop of `addAllFunctions` for one function found, `LLVMTaintConfig.cpp:75-120`. -/
def addFun (M : Module) (d : FunData) (f : Nat) (c : Cfg) : Cfg :=
  let c := c.addAll (byIndex M f d.src) .source
  let c := c.addAll (byIndex M f d.snk) .sink
  let c := if d.all then c.addAll (M.params f) .sink else c
  let c := c.addAll (byIndex M f d.san) .sanitizer
  c.addAll (M.users f) d.ret

/-- `addAllFunctions`, `LLVMTaintConfig.cpp:63-122`; `none` if a null pointer is dereferenced. -/
def addFuns (M : Module) : List FunData → Cfg → Option Cfg
  | [], c => some c
  | d :: ds, c =>
    match findDefs M d.name with
    | none => none
    | some [] => addFuns M ds c
    | some (none :: _) => none
    | some (some f :: _) => addFuns M ds (addFun M d f c)

/-- `StructConfigMap`, `LLVMTaintConfig.cpp:131-150`: `insert` keeps the first entry of a key. -/
def structMap (M : Module) (vs : List VarData) : AMap Nat Str :=
  vs.foldl (fun m v => (M.types.filter (fun t => t = v.scope)).foldl (fun m _ =>
    M.structs.foldl (fun m s => match m.get s with | some _ => m | none => m.set s v.name) m) m) []

/-- What one instruction marks for one variable, `LLVMTaintConfig.cpp:156-178`. -/
def varMark (m : AMap Nat Str) (v : VarData) (i : Nat) : Inst → Option Nat
  | .dbgDeclare n l a => if n = v.name ∧ l = v.line then some a else none
  | .gep (some s) n => match m.get s with
    | some x => if x.isPrefixOf n then some i else none
    | none => none
  | _ => none

/-- The values marked for one variable, `LLVMTaintConfig.cpp:154-180`. -/
def varMarks (M : Module) (m : AMap Nat Str) (v : VarData) : List Nat :=
  M.funs.flatMap (fun f => (M.insts f).filterMap (fun i => varMark m v i (M.inst i)))

/-- The constructor from a configuration, `LLVMTaintConfig.cpp:124-182`. -/
def build (M : Module) (d : Data) : Option Cfg :=
  (addFuns M d.funs {}).map (fun c =>
    d.vars.foldl (fun c v => c.addAll (varMarks M (structMap M d.vars) v) v.cat) c)

/-- The values of a category. -/
def Cfg.get (c : Cfg) : Cat → List Nat
  | .source => c.src
  | .sink => c.snk
  | .sanitizer => c.san
  | .none => []

/-! ## Annotations -/

/-- A call of `llvm.var.annotation` or `llvm.ptr.annotation`: the string (empty if it could not be retrieved, `Annotation.cpp:56-73`) and
the value the annotated operand is a bitcast of (`none`: it is no bitcast, `Annotation.cpp:78-79`). -/
structure VarAnn where
  str : Str
  val : Option Nat

/-- An entry of `llvm.global.annotations`: the string and the function (`none`: something else is annotated, for instance a global
variable, `Annotation.cpp:98-107`). -/
structure GlobalAnn where
  str : Str
  fn : Option Nat

/-- The annotated module: `stores v` are the users of `v` that are stores, by the argument of a function they store if they do
(`Annotation.cpp:83-88`). -/
structure Annotated where
  locals : List VarAnn
  globals : List GlobalAnn
  ptrs : List VarAnn
  stores : Nat → List (Option Nat)
  users : Nat → List Nat
  isCall : Nat → Bool

/-- `VarAnnotation::getOriginalValueOrOriginalArg`, `Annotation.cpp:75-92`. -/
def origin (A : Annotated) (v : Nat) : Nat :=
  match (A.stores v).find? Option.isSome with
  | some (some a) => a
  | _ => v

/-- The loops over annotation calls, `LLVMTaintConfig.cpp:188-199` and `:232-245`; `none` if the assertion fails. -/
def addVarAnns (A : Annotated) : List VarAnn → Cfg → Option Cfg
  | [], c => some c
  | a :: as, c => match a.val with
    | none => none
    | some v => addVarAnns A as (c.addStr (origin A v) (a.str.drop 4))

/-- The loop over global annotations, `LLVMTaintConfig.cpp:204-222`; `none` if a null pointer is dereferenced. -/
def addGlobalAnns (A : Annotated) : List GlobalAnn → Cfg → Option Cfg
  | [], c => some c
  | a :: as, c => match a.fn with
    | none => none
    | some f => addGlobalAnns A as (c.addAll ((A.users f).filter A.isCall) (toCat (a.str.drop 4)))

/-- The constructor from an annotated module, `LLVMTaintConfig.cpp:184-246`. -/
def buildAnnotated (A : Annotated) : Option Cfg := do
  let c ← addVarAnns A A.locals {}
  let c ← addGlobalAnns A A.globals c
  addVarAnns A A.ptrs c

/-! ## Queries -/

/-- A configuration with its call-backs (`TaintConfigBase.h:153-155`); `none` is an empty `unique_function`. -/
structure Full extends Cfg where
  srcCB : Option (Nat → List Nat) := none
  snkCB : Option (Nat → List Nat) := none
  sanCB : Option (Nat → List Nat) := none

/-- An instruction in a query: the instruction, the operands (of a call: the arguments, then the function called) and, for a call, the
number of arguments. -/
structure Site where
  id : Nat
  ops : List Nat
  nargs : Nat

/-- What a call-back yields. -/
def cbVals (cb : Option (Nat → List Nat)) (n : Nat) : List Nat :=
  match cb with
  | some f => f n
  | none => []

/-- The operands at the positions of the marked parameters, `LLVMTaintConfig.cpp:326-331`, `:361-367`, `:387-393`; `none` if there is no
such operand. -/
def marked (S : List Nat) (s : Site) : List Nat → Nat → Option (List Nat)
  | [], _ => some []
  | a :: as, i =>
    if a ∈ S then match s.ops[i]? with
      | some o => (marked S s as (i + 1)).map (fun r => o :: r)
      | none => none
    else marked S s as (i + 1)

/-- The operands at the positions of the marked parameters of the callee, and other ones if there is none, for instance
`LLVMTaintConfig.cpp:326-342`. -/
def atSite (S : List Nat) (s : Site) (callee : Option (List Nat)) (other : List Nat) : Option (List Nat) :=
  match callee with
  | some ps => marked S s ps 0
  | none => some other

/-- `forAllGeneratedValuesAt`, `LLVMTaintConfig.cpp:314-347`: the values the handler is called with.  `callee` are the parameters of the
callee if there is one. -/
def generated (c : Full) (s : Site) (callee : Option (List Nat)) : Option (List Nat) :=
  (atSite c.src s callee (s.ops.filter (fun o => o ∈ c.src))).map
    (fun r => cbVals c.srcCB s.id ++ r ++ (if s.id ∈ c.src then [s.id] else []))

/-- `forAllLeakCandidatesAt`, `LLVMTaintConfig.cpp:349-373`. -/
def leakCandidates (c : Full) (s : Site) (callee : Option (List Nat)) : Option (List Nat) :=
  (atSite c.snk s callee []).map (fun r => cbVals c.snkCB s.id ++ r)

/-- `forAllSanitizedValuesAt`, `LLVMTaintConfig.cpp:375-394`. -/
def sanitized (c : Full) (s : Site) (callee : Option (List Nat)) : Option (List Nat) :=
  (atSite c.san s callee []).map (fun r => cbVals c.sanCB s.id ++ r)

/-- Whether a parameter of the callee is marked, for instance `LLVMTaintConfig.cpp:404-408`. -/
def anyParam (S : List Nat) : Option (List Nat) → Bool
  | some ps => ps.any (fun a => a ∈ S)
  | none => false

/-- `generatesValuesAt`, `LLVMTaintConfig.cpp:396-414`. -/
def generates (c : Full) (s : Site) (callee : Option (List Nat)) : Bool :=
  !(cbVals c.srcCB s.id).isEmpty || anyParam c.src callee || decide (s.id ∈ c.src) || s.ops.any (fun o => o ∈ c.src)

/-- `mayLeakValuesAt`, `LLVMTaintConfig.cpp:416-427`. -/
def mayLeak (c : Full) (s : Site) (callee : Option (List Nat)) : Bool :=
  !(cbVals c.snkCB s.id).isEmpty || anyParam c.snk callee

/-- `sanitizesValuesAt`, `LLVMTaintConfig.cpp:429-440`. -/
def sanitizes (c : Full) (s : Site) (callee : Option (List Nat)) : Bool :=
  !(cbVals c.sanCB s.id).isEmpty || anyParam c.san callee

/-- `getCategory`, `LLVMTaintConfig.cpp:442-453`. -/
def category (c : Full) (v : Nat) : Cat :=
  if v ∈ c.src then .source
  else if v ∈ c.snk then .sink
  else if v ∈ c.san then .sanitizer
  else .none

/-- The arguments at the positions of the marked parameters, `TaintConfigUtilities.h:40-44`, `:61-65`, `:82-86`; `getArgOperand` asserts
that there is one. -/
def markedArgs (S : List Nat) (s : Site) : List Nat → Nat → Option (List Nat)
  | [], _ => some []
  | a :: as, i =>
    if a ∈ S then match (s.ops.take s.nargs)[i]? with
      | some o => (markedArgs S s as (i + 1)).map (fun r => o :: r)
      | none => none
    else markedArgs S s as (i + 1)

/-- `collectGeneratedFacts`, `TaintConfigUtilities.h:27-45`. -/
def collectGenerated (c : Full) (s : Site) (ps : List Nat) : Option (List Nat) :=
  (markedArgs c.src s ps 0).map (fun r => cbVals c.srcCB s.id ++ (if s.id ∈ c.src then [s.id] else []) ++ r)

/-- `collectLeakedFacts`, `TaintConfigUtilities.h:50-66`, with the predicate `p` on facts; an argument is asked for as soon as its parameter is
marked. -/
def collectLeaked (c : Full) (s : Site) (ps : List Nat) (p : Nat → Bool) : Option (List Nat) :=
  (markedArgs c.snk s ps 0).map (fun r => (cbVals c.snkCB s.id).filter p ++ r.filter p)

/-- `collectSanitizedFacts`, `TaintConfigUtilities.h:79-87`. -/
def collectSanitized (c : Full) (s : Site) (ps : List Nat) : Option (List Nat) := markedArgs c.san s ps 0

/-- Values as `makeInitialSeeds` tells them apart (`LLVMTaintConfig.cpp:460-468`): instructions, arguments of functions with a body (with the
start points of the function), and the rest: arguments of declarations, globals, constants. -/
inductive Kind where
  | inst
  | arg (starts : List Nat)
  | rest

/-- `InitialSeeds[n].insert(v)`, `LLVMTaintConfig.cpp:461`, `:466`. -/
def putSeed (m : AMap Nat (List Nat)) (n v : Nat) : AMap Nat (List Nat) :=
  m.set n (FSet.insert ((m.get n).getD []) v)

/-- `makeInitialSeeds`, `LLVMTaintConfig.cpp:455-471`. -/
def seeds (kind : Nat → Kind) (c : Full) : AMap Nat (List Nat) :=
  c.src.foldl (fun m v => match kind v with
    | .inst => putSeed m v v
    | .arg sps => sps.foldl (fun m n => putSeed m n v) m
    | .rest => m) []

/-! ## Specification -/

/-- Specification: how a description of a function is written down. -/
def writeFun (d : FunData) : Json :=
  .obj ([("name".toList, .str d.name)] ++
    (match d.ret with
      | .none => []
      | .source => [("ret".toList, .str "source".toList)]
      | .sink => [("ret".toList, .str "sink".toList)]
      | .sanitizer => [("ret".toList, .str "sanitizer".toList)]) ++
    [("params".toList, .obj [("source".toList, .arr (d.src.map (fun (i : Nat) => .num i))),
      ("sink".toList, .arr (d.snk.map (fun (i : Nat) => .num i) ++ (if d.all then [.str "all".toList] else []))),
      ("sanitizer".toList, .arr (d.san.map (fun (i : Nat) => .num i)))])])

/-- Specification: how a description of a variable is written down. -/
def writeVar (d : VarData) : Json :=
  .obj ([("scope".toList, .str d.scope), ("name".toList, .str d.name), ("line".toList, .num d.line)] ++
    (match d.cat with
      | .none => []
      | .source => [("cat".toList, .str "source".toList)]
      | .sink => [("cat".toList, .str "sink".toList)]
      | .sanitizer => [("cat".toList, .str "sanitizer".toList)]))

/-- Specification: how a configuration is written down. -/
def write (d : Data) : Json :=
  .obj [("functions".toList, .arr (d.funs.map writeFun)), ("variables".toList, .arr (d.vars.map writeVar))]

/-- Specification: a definition in the debug information is called `n`, in the source or in the module. -/
def Called (n : Str) (s : Sub) : Prop := s.distinct = true ∧ s.linkage ≠ [] ∧ (s.name = n ∨ s.linkage = n)

/-- Specification: the function `f` is one of those called `n`: a definition in the debug information is called `n` and is `f`, or there is
none and `f` has the name `n` in the module. -/
def Named (M : Module) (n : Str) (f : Nat) : Prop :=
  (∃ s ∈ M.subs, Called n s ∧ M.lookup s.linkage = some f) ∨ ((¬ ∃ s ∈ M.subs, Called n s) ∧ M.lookup n = some f)

/-- Specification: the first of them. -/
def First (M : Module) (n : Str) (f : Nat) : Prop :=
  (∃ pre s post, M.subs = pre ++ s :: post ∧ Called n s ∧ (∀ t ∈ pre, ¬ Called n t) ∧ M.lookup s.linkage = some f) ∨
  ((¬ ∃ s ∈ M.subs, Called n s) ∧ M.lookup n = some f)

/-- Specification: the indices a description gives for a category. -/
def indices (d : FunData) : Cat → List Nat
  | .source => d.src
  | .sink => d.snk
  | .sanitizer => d.san
  | .none => []

/-- Specification: what a description of a function says about the function `f`: the parameters with the indices given, all parameters as
sinks, the values `rets f` that stand for what `f` returns. -/
inductive Says (M : Module) (rets : Nat → Nat → Prop) (d : FunData) (f : Nat) : Cat → Nat → Prop where
  | param {k i v} (hi : i ∈ indices d k) (hv : (M.params f)[i]? = some v) : Says M rets d f k v
  | all {v} (h : d.all = true) (hv : v ∈ M.params f) : Says M rets d f .sink v
  | ret {v} (h : rets f v) : Says M rets d f d.ret v

/-- Specification: what a description of a variable says: `a` is the address of a local variable of that name declared in that line. -/
def Local (M : Module) (d : VarData) (a : Nat) : Prop :=
  ∃ f ∈ M.funs, ∃ i ∈ M.insts f, M.inst i = .dbgDeclare d.name d.line a

/-- Specification: what is taken for an access to a member of a struct: the instruction `i` addresses some identified struct type, and its name
begins with the name of the first variable whose scope is the name of a struct. -/
def MemberLike (M : Module) (vs : List VarData) (i : Nat) : Prop :=
  ∃ f ∈ M.funs, i ∈ M.insts f ∧ ∃ s n, M.inst i = .gep (some s) n ∧ s ∈ M.structs ∧
    ∃ pre v post, vs = pre ++ v :: post ∧ v.scope ∈ M.types ∧ (∀ w ∈ pre, w.scope ∉ M.types) ∧ v.name <+: n

end Phasar.TaintCfg
