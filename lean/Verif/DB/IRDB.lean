import Verif.Util.StringID
/-!
# Model of `LLVMProjectIRDB` and of the metadata ids

Models `lib/PhasarLLVM/DB/LLVMProjectIRDB.cpp`, `include/phasar/PhasarLLVM/DB/LLVMProjectIRDB.h` and `getMetaDataID` of
`lib/PhasarLLVM/Utils/LLVMShorthands.cpp`.  Strings are sequences of bytes.  A value is its identity; what LLVM knows about it
(its function, its position) is in the module.  Failed assertions are `none`.
-/
namespace Phasar.DB

open Phasar.StringID (Str isDigit digits value)

/-- An LLVM value, by identity: a global variable, an instruction, an argument of a function, a function, anything else (the
cases told apart by `LLVMShorthands.cpp:254-271`). -/
inductive Val where
  | glob (n : Nat)
  | inst (n : Nat)
  | arg (f i : Nat)
  | fn (f : Nat)
  | other (n : Nat)
deriving DecidableEq, Repr

/-- `llvm::Function`: identity, name, number of arguments, instructions by basic block (what `LLVMProjectIRDB.cpp:112-124` and
`LLVMShorthands.cpp:267-286` read). -/
structure Fun where
  id : Nat
  name : Str
  args : Nat
  blocks : List (List Nat)
deriving DecidableEq, Repr

/-- `llvm::instructions(Fun)`: the instructions of all blocks in order (`LLVMProjectIRDB.cpp:90`, `113`, `244`). -/
def Fun.insts (f : Fun) : List Val := f.blocks.flatten.map .inst

/-- `llvm::Module`: its global variables and functions in order (`LLVMProjectIRDB.cpp:81`, `89`). -/
structure Module where
  globals : List Nat
  funs : List Fun
deriving DecidableEq, Repr

/-- `LLVMProjectIRDB`, the data of `LLVMProjectIRDB.h:162-166`, with the metadata attached to the values of the module. -/
structure IRDB where
  mod : Module
  md : Val → Option Str
  offset : Nat
  idToInst : List Val
  instToId : List (Val × Nat)

/-- The digits of a number below `10 ^ fuel`, most significant first. -/
def decAux : Nat → Nat → Str
  | 0, _ => []
  | fuel + 1, n => if n < 10 then [48 + n] else decAux fuel (n / 10) ++ [48 + n % 10]

/-- `std::to_string` of an unsigned number (`LLVMProjectIRDB.cpp:103`, `115`, `247`; `LLVMShorthands.cpp:268`). -/
def toStr (n : Nat) : Str := decAux (n + 1) n

/-- `DenseMap::try_emplace` (`LLVMProjectIRDB.cpp:83`): keeps an entry that is there. -/
def tryEmplace (m : List (Val × Nat)) (v : Val) (k : Nat) : List (Val × Nat) :=
  if (m.lookup v).isSome then m else m ++ [(v, k)]

/-- The body of the loops at `LLVMProjectIRDB.cpp:81-86`, `90-95` (without metadata), `101-110`, `113-122`, `244-256`: the
metadata if wanted, the two tables, the counter. -/
def visit (pre : Bool) (p : IRDB × Nat) (v : Val) : IRDB × Nat :=
  ({ p.1 with
      md := if pre then fun w => if w = v then some (toStr p.2) else p.1.md w else p.1.md
      idToInst := p.1.idToInst ++ [v]
      instToId := tryEmplace p.1.instToId v p.2 }, p.2 + 1)

/-- `initInstructionIds` (`pre = false`, `LLVMProjectIRDB.cpp:78-97`) and `preprocessModule` (`pre = true`,
`LLVMProjectIRDB.cpp:100-126`), which differ in the metadata only.  `none`: the assertion fails. -/
def number (pre : Bool) (db : IRDB) : Option IRDB :=
  let p := (db.mod.globals.map Val.glob).foldl (visit pre) (db, 0)
  let q := ((db.mod.funs.map Fun.insts).flatten).foldl (visit pre) ({ p.1 with offset := p.2 }, p.2)
  if q.1.instToId.length = q.1.idToInst.length then some q.1 else none

/-- The constructors from a module, `LLVMProjectIRDB.cpp:64-76`, `128-168`: `md` is the metadata the module comes with.  Parsing
and the slot tracker (see `SlotTracker.lean`) are left out. -/
def construct (pre : Bool) (m : Module) (md : Val → Option Str) : Option IRDB := number pre ⟨m, md, 0, [], []⟩

/-- A module with further functions at the end. -/
def Module.add (m : Module) (fs : List Fun) : Module := ⟨m.globals, m.funs ++ fs⟩

/-- LLVM adds a function to the module (`llvm::Function::Create`, as called in `GlobalCtorsDtorsModel.cpp:171-182`). -/
def addFun (db : IRDB) (f : Fun) : IRDB := { db with mod := db.mod.add [f] }

/-- `insertFunction`, `LLVMProjectIRDB.cpp:238-258`. -/
def insertFunction (db : IRDB) (f : Fun) (pre : Bool) : Option IRDB :=
  if f ∈ db.mod.funs then
    let q := f.insts.foldl (visit pre) (db, db.idToInst.length)
    if q.1.instToId.length = q.1.idToInst.length then some q.1 else none
  else none

/-- `getValueFromId`, `LLVMProjectIRDB.h:95-97`; `none` is null. -/
def getValueFromId (db : IRDB) (k : Nat) : Option Val := if k < db.idToInst.length then db.idToInst[k]? else none

/-- Subtraction of `size_t`, which wraps around (`LLVMProjectIRDB.h:138`). -/
def sub64 (a b : Nat) : Nat := (a + (18446744073709551616 - b)) % 18446744073709551616

/-- `getInstructionImpl`, `LLVMProjectIRDB.h:136-142`: the outer `none` is a failing `cast`, the inner one is null. -/
def getInstruction (db : IRDB) (k : Nat) : Option (Option Val) :=
  if sub64 k db.offset < sub64 db.idToInst.length db.offset then
    match db.idToInst[k]? with
    | some (.inst n) => some (some (.inst n))
    | _ => none
  else some none

/-- `getInstructionIdImpl`, `LLVMProjectIRDB.h:150-154`: `none` is the failing assertion. -/
def getInstructionId (db : IRDB) (v : Val) : Option Nat := db.instToId.lookup v

/-- `getNumInstructionsImpl`, `LLVMProjectIRDB.h:126-128`. -/
def getNumInstructions (db : IRDB) : Nat := sub64 db.idToInst.length db.offset

/-- `getAllInstructionsImpl`, `LLVMProjectIRDB.h:144-148`. -/
def getAllInstructions (db : IRDB) : List Val := db.idToInst.drop db.offset

/-- `getFunctionImpl`, `LLVMProjectIRDB.h:112-114`: `Module::getFunction` looks the name up in the symbol table, in which
functions without a name are not. -/
def getFunction (db : IRDB) (name : Str) : Option Fun := if name = [] then none else db.mod.funs.find? (fun f => f.name = name)

/-- `getMetaDataID`, `LLVMShorthands.cpp:253-273`: `-1` is the string of a value without id. -/
def getMetaDataID (db : IRDB) (v : Val) : Str :=
  match v with
  | .inst _ => (db.md v).getD [45, 49]
  | .glob _ => (db.md v).getD [45, 49]
  | .arg f i => match db.mod.funs.find? (fun g => g.id = f) with
    | some g => g.name ++ 46 :: toStr i
    | none => [45, 49]
  | _ => [45, 49]

/-- `ParseInt`, `LLVMProjectIRDB.cpp:269-281`: `std::from_chars` for `unsigned`: the digits at the start, an error if there
are none or if the number is out of range.  What follows the digits is ignored. -/
def parseInt (s : Str) : Option Nat :=
  match digits s with
  | [] => none
  | ds => if value 0 ds < 4294967296 then some (value 0 ds) else none

/-- `Id.find('.')` with what is before and after it, `LLVMProjectIRDB.cpp:283-286`. -/
def splitDot : Str → Option (Str × Str)
  | [] => none
  | c :: cs => if c = 46 then some ([], cs) else (splitDot cs).map (fun p => (c :: p.1, p.2))

/-- `getNthFunctionArgument`, `LLVMShorthands.cpp:286-293`. -/
def getNthFunctionArgument (f : Fun) (i : Nat) : Option Val := if f.args ≤ i then none else some (.arg f.id i)

/-- `fromMetaDataId`, `LLVMProjectIRDB.cpp:263-302`; `none` is null. -/
def fromMetaDataId (db : IRDB) (s : Str) : Option Val :=
  match s with
  | [] => none
  | c :: _ =>
    if c = 45 then none else
    match splitDot s with
    | some (name, rest) =>
      match parseInt rest with
      | none => none
      | some i => match getFunction db name with
        | some f => getNthFunctionArgument f i
        | none => none
    | none => match parseInt s with
      | some k => getValueFromId db k
      | none => none

/-! ### Specification -/

/-- Specification: the numbered values of a module: its global variables, then the instructions of its functions. -/
def Module.values (m : Module) : List Val := m.globals.map .glob ++ (m.funs.map Fun.insts).flatten

/-- Specification: what LLVM guarantees of a module: every global variable and instruction occurs once; functions differ in
identity, and those that have a name differ in name. -/
structure Module.Wf (m : Module) : Prop where
  vals : m.values.Nodup
  ids : ∀ f ∈ m.funs, ∀ g ∈ m.funs, f.id = g.id → f = g
  names : ∀ f ∈ m.funs, ∀ g ∈ m.funs, f.name = g.name → f.name ≠ [] → f = g

/-- Specification: the values of a module that have an id of their own. -/
def Module.Has (m : Module) (v : Val) : Prop := v ∈ m.values ∨ ∃ f ∈ m.funs, ∃ i, i < f.args ∧ v = .arg f.id i

/-- A life of a database: the construction, then functions created in the module and inserted, with or without preprocessing
(as `GlobalCtorsDtorsModel.cpp:229-235`, `341` does). -/
def life (pre : Bool) (m : Module) (md : Val → Option Str) (fs : List (Fun × Bool)) : Option IRDB :=
  fs.foldlM (fun db p => insertFunction (addFun db p.1) p.1 p.2) =<< construct pre m md

end Phasar.DB
