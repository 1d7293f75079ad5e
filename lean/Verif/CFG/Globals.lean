import Verif.DB.IRDB
/-!
# Model of `GlobalCtorsDtorsModel`

Models `lib/PhasarLLVM/ControlFlow/GlobalCtorsDtorsModel.cpp`, `getEntryFunctionsMut` of
`lib/PhasarLLVM/ControlFlow/EntryFunctionUtils.cpp`, and the insertion of the generated functions into the database
(`Verif/DB/IRDB.lean`).  Functions and instructions are identities; types are numbers (0 is `i32`, 1 is `i8**`).  Failing
assertions and casts and accesses out of bounds are `none`.
-/
namespace Phasar.Globals

open Phasar.StringID (Str ascii)

/-- An operand of a call: a function, a constant, a value of a function (an instruction or argument, known by a number), or a
constant expression with its first operand; each with its type (`GlobalCtorsDtorsModel.cpp:75-83`). -/
inductive Opnd where
  | fn (f ty : Nat)
  | const (n ty : Nat)
  | loc (f n ty : Nat)
  | expr (o : Opnd) (ty : Nat)
deriving DecidableEq, Repr

/-- `Value::getType` (`GlobalCtorsDtorsModel.cpp:146`). -/
def Opnd.ty : Opnd → Nat
  | .fn _ t => t
  | .const _ t => t
  | .loc _ _ t => t
  | .expr _ t => t

/-- The instructions the model consists of (`GlobalCtorsDtorsModel.cpp:157-160`, `211-214`, `250`, `262-334`).  Blocks are
numbered by their position in the function.  The value tested by `switch` is the result of the call before it. -/
inductive Kind where
  | call (f : Nat) (args : List Opnd)
  | switch (cases : List (Nat × Nat)) (default : Nat)
  | br (b : Nat)
  | ret
  | unreachable
deriving DecidableEq, Repr

/-- `llvm::Function`: identity, name, types of the parameters, external linkage, blocks of instructions (identity and kind). -/
structure GFn where
  id : Nat
  name : Str
  params : List Nat
  extern : Bool
  blocks : List (List (Nat × Kind))
deriving DecidableEq, Repr

/-- An element of `llvm.global_ctors`: the function and the priority, as far as the operands are a function and a number
(`GlobalCtorsDtorsModel.cpp:35-38`). -/
structure Desc where
  fn : Option Nat
  prio : Option Nat
deriving DecidableEq, Repr

/-- A user of `__cxa_atexit`: whether it is a call, its arguments, the name of its function (`GlobalCtorsDtorsModel.cpp:85-104`). -/
structure User where
  call : Bool
  args : List Opnd
  inName : Str
deriving DecidableEq, Repr

/-- The module: `ctors` and `dtors` are the elements of the arrays `llvm.global_ctors` and `llvm.global_dtors` (`none`: there is no
such array; an element that is no struct is `none`), `atexit` the users of `__cxa_atexit` in the order of LLVM's use list
(`none`: no such function), `next` an identity not used so far. -/
structure GMod where
  name : Str
  fns : List GFn
  ctors : Option (List (Option Desc))
  dtors : Option (List (Option Desc))
  atexit : Option (List User)
  next : Nat
deriving DecidableEq, Repr

/-- `std::multimap::emplace`: before the first key that comes after the new one, hence after equal keys
(`GlobalCtorsDtorsModel.cpp:41`, `178`). -/
def emplace (lt : Nat → Nat → Bool) (p f : Nat) : List (Nat × Nat) → List (Nat × Nat)
  | [] => [(p, f)]
  | (q, g) :: r => if lt p q then (p, f) :: (q, g) :: r else (q, g) :: emplace lt p f r

/-- The body of the loop at `GlobalCtorsDtorsModel.cpp:34-44`.  Priorities are not clamped to 64 bits. -/
def gtorStep (lt : Nat → Nat → Bool) (m : List (Nat × Nat)) (d : Option Desc) : List (Nat × Nat) :=
  match d with
  | some ⟨some f, some p⟩ => emplace lt p f m
  | _ => m

/-- `insertGlobalCtorsDtorsImpl`, `GlobalCtorsDtorsModel.cpp:23-47`. -/
def insertGtors (lt : Nat → Nat → Bool) (v : Option (List (Option Desc))) : List (Nat × Nat) :=
  match v with
  | none => []
  | some ds => ds.foldl (gtorStep lt) []

/-- `collectGlobalCtors`, `GlobalCtorsDtorsModel.cpp:49-54`. -/
def collectGlobalCtors (m : GMod) : List (Nat × Nat) := insertGtors (fun a b => decide (a < b)) m.ctors

/-- `collectGlobalDtors`, `GlobalCtorsDtorsModel.cpp:56-61`: `std::greater`. -/
def collectGlobalDtors (m : GMod) : List (Nat × Nat) := insertGtors (fun a b => decide (b < a)) m.dtors

/-- `getConstantBitcastArgument`, `GlobalCtorsDtorsModel.cpp:75-83`: the first operand of any constant expression, not only of a
bit cast. -/
def stripExpr : Opnd → Opnd
  | .expr o _ => o
  | o => o

/-- `__cxx_global_var_init`, `GlobalCtorsDtorsModel.cpp:99`. -/
def varInit : Str := ascii "__cxx_global_var_init"

/-- The body of the loop at `GlobalCtorsDtorsModel.cpp:85-104`, on the two vectors. -/
def regStep (p : List (Nat × Opnd) × List (Nat × Opnd)) (u : User) : Option (List (Nat × Opnd) × List (Nat × Opnd)) :=
  if !u.call then some p
  else match u.args[0]?, u.args[1]? with
    | some a0, some a1 =>
      match stripExpr a0 with
      | .fn f _ =>
        if varInit <:+: u.inName then some (p.1 ++ [(f, stripExpr a1)], p.2) else some (p.1, p.2 ++ [(f, stripExpr a1)])
      | _ => some p
    | _, _ => none

/-- `collectRegisteredDtorsForModule`, `GlobalCtorsDtorsModel.cpp:63-112`. -/
def collectRegistered (m : GMod) : Option (List (Nat × Opnd)) :=
  match m.atexit with
  | none => some []
  | some us => (us.foldlM regStep ([], [])).map (fun p => p.1 ++ p.2)

/-- `getReducedModuleName`, `GlobalCtorsDtorsModel.cpp:114-121`: what follows the last slash. -/
def reducedName (s : Str) : Str := (s.reverse.takeWhile (fun c => c ≠ 47)).reverse

/-- `Module::getFunction` by name; functions without a name are not in the symbol table. -/
def fnNamed (m : GMod) (name : Str) : Option GFn := if name = [] then none else m.fns.find? (fun f => f.name = name)

/-- The function with an identity. -/
def fnOf (m : GMod) (f : Nat) : Option GFn := m.fns.find? (fun g => g.id = f)

/-- `cast<Function>(Module::getOrInsertFunction(…).getCallee())` (`GlobalCtorsDtorsModel.cpp:128-133`, `199-203`, `237-246`): a
function of the same name with other parameters is returned as a constant expression, so that the cast fails. -/
def getOrInsert (m : GMod) (name : Str) (params : List Nat) : Option (GMod × Nat) :=
  match fnNamed m name with
  | some g => if g.params = params then some (m, g.id) else none
  | none => some ({ m with fns := m.fns ++ [⟨m.next, name, params, true, []⟩], next := m.next + 1 }, m.next)

/-- Identities for the instructions of new blocks. -/
def number : Nat → List (List Kind) → List (List (Nat × Kind))
  | _, [] => []
  | n, b :: bs => (b.zipIdx n).map (fun p => (p.2, p.1)) :: number (n + b.length) bs

/-- New blocks at the end of a function (`BasicBlock::Create` with a parent, and the instructions the builder puts into them:
`GlobalCtorsDtorsModel.cpp:135-160`, `205-214`, `248-334`). -/
def addBlocks (m : GMod) (f : Nat) (bs : List (List Kind)) : GMod :=
  { m with
    fns := m.fns.map (fun g => if g.id = f then { g with blocks := g.blocks ++ number m.next bs } else g)
    next := m.next + bs.flatten.length }

/-- `__psrGlobalDtorsCaller` etc., `GlobalCtorsDtorsModel.h:21-31`. -/
def modelName : Str := ascii "__psrCRuntimeGlobalCtorsModel"
/-- `DtorModelName`, `GlobalCtorsDtorsModel.h:24-25`. -/
def dtorModelName : Str := ascii "__psrCRuntimeGlobalDtorsModel"
/-- `DtorsCallerName`, `GlobalCtorsDtorsModel.h:27-28`. -/
def dtorsCallerName : Str := ascii "__psrGlobalDtorsCaller"
/-- `UserEntrySelectorName`, `GlobalCtorsDtorsModel.h:30-31`. -/
def selectorName : Str := ascii "__psrCRuntimeUserEntrySelector"

/-- The body of the loop at `GlobalCtorsDtorsModel.cpp:140-158` for one registered destructor: `lossless` is
`canLosslesslyBitCastTo`.  The cast of the argument, an instruction if the argument is a value of a function, is an operand here. -/
def dtorCall (lossless : Nat → Nat → Bool) (m : GMod) (d : Nat × Opnd) : Option (List Kind) :=
  match fnOf m d.1 with
  | none => none
  | some g => match g.params with
    | [t] =>
      if d.2.ty ≠ t then
        if lossless d.2.ty t then some [.call d.1 [.expr d.2 t]] else some []
      else some [.call d.1 [d.2]]
    | _ => none

/-- `createDtorCallerForModule`, `GlobalCtorsDtorsModel.cpp:123-163`. -/
def createDtorCaller (lossless : Nat → Nat → Bool) (m : GMod) (rs : List (Nat × Opnd)) : Option (GMod × Nat) :=
  (getOrInsert m (dtorsCallerName ++ 46 :: reducedName m.name) []).bind (fun p =>
    (rs.reverse.mapM (dtorCall lossless p.1)).map (fun ks => (addBlocks p.1 p.2 [ks.flatten ++ [.ret]], p.2)))

/-- A call of a function without parameters, `GlobalCtorsDtorsModel.cpp:208-212`, `255-260`: the assertion `arg_empty`. -/
def callPlain (m : GMod) (f : Nat) : Option Kind :=
  match fnOf m f with
  | some g => if g.params = [] then some (.call f []) else none
  | none => none

/-- `buildCRuntimeGlobalDtorsModel`, `GlobalCtorsDtorsModel.cpp:189-217`. -/
def buildCleanup (m : GMod) (ds : List (Nat × Nat)) : Option (GMod × Nat × Bool) :=
  match ds with
  | [d] => some (m, d.2, false)
  | _ => (getOrInsert m dtorModelName []).bind (fun p =>
      ((ds.map Prod.snd).mapM (callPlain p.1)).map (fun ks => (addBlocks p.1 p.2 [ks ++ [.ret]], p.2, true)))

/-- `CallUEntry`, `GlobalCtorsDtorsModel.cpp:267-302`: the model `g` passes on its arguments. -/
def callUEntry (m : GMod) (g cleanup : Nat) (e : Nat) : Option (List Kind) :=
  (fnOf m e).map (fun f =>
    (match f.params.length with
      | 0 => [.call e []]
      | 2 => if f.name ≠ ascii "main" then [] else [.call e [.loc g 0 0, .loc g 1 1]]
      | _ => []) ++
    (if f.name = ascii "main" then [.call cleanup []] else []))

/-- The new blocks of the model, after `base` blocks, `GlobalCtorsDtorsModel.cpp:248-334`: one block for one entry point; else the
blocks `entry`, `invalid`, `switchEnd`, and one for each entry point. -/
def modelBlocks (m : GMod) (g cleanup : Nat) (ctors : List (Nat × Nat)) (es : List Nat) (sel : Nat) (base : Nat) :
    Option (List (List Kind)) :=
  ((ctors.map Prod.snd).mapM (callPlain m)).bind (fun cs =>
    (es.mapM (callUEntry m g cleanup)).map (fun us =>
      match us with
      | [u] => [cs ++ u ++ [.ret]]
      | _ => [cs ++ [.call sel [], .switch ((List.range us.length).map (fun i => (i, base + 3 + i))) (base + 1)], [.unreachable], [.ret]] ++
          us.map (fun u => u ++ [.br (base + 2)])))

/-- What `buildModel` has built: the module, the functions to be entered into the database, the model, the cleanup function,
the caller of the registered destructors. -/
structure Built where
  mod : GMod
  inserted : List Nat
  model : Nat
  cleanup : Nat
  caller : Option Nat
deriving DecidableEq, Repr

/-- The destructors with the caller of the registered ones, `collectRegisteredDtors`, `GlobalCtorsDtorsModel.cpp:165-187`. -/
def addCaller (lossless : Nat → Nat → Bool) (m : GMod) : Option (GMod × List (Nat × Nat) × Option Nat) :=
  (collectRegistered m).bind (fun rs =>
    if rs = [] then some (m, collectGlobalDtors m, none)
    else (createDtorCaller lossless m rs).map (fun p =>
      (p.1, emplace (fun a b => decide (b < a)) 0 p.2 (collectGlobalDtors m), some p.2)))

/-- The model itself with the function that selects the entry point, `GlobalCtorsDtorsModel.cpp:236-341`.  The selector is declared
only if there are several entry points. -/
def buildGlob (m : GMod) (cleanup : Nat) (ctors : List (Nat × Nat)) (es : List Nat) : Option (GMod × Nat) :=
  if es = [] then none else
  (getOrInsert m modelName [0, 1]).bind (fun p =>
    ((if es.length = 1 then some (p.1, 0) else getOrInsert p.1 selectorName [])).bind (fun q =>
      (fnOf q.1 p.2).bind (fun g =>
        (modelBlocks q.1 p.2 cleanup ctors es q.2 g.blocks.length).map (fun bs => (addBlocks q.1 p.2 bs, p.2)))))

/-- `buildModel` without the database, `GlobalCtorsDtorsModel.cpp:219-346`. -/
def buildIR (lossless : Nat → Nat → Bool) (m : GMod) (es : List Nat) : Option Built :=
  (addCaller lossless m).bind (fun p =>
    (buildCleanup p.1 p.2.1).bind (fun q =>
      (buildGlob q.1 q.2.1 (collectGlobalCtors m) es).map (fun r =>
        ⟨r.1, p.2.2.toList ++ (if q.2.2 then [q.2.1] else []) ++ [r.2], r.2, q.2.1, p.2.2⟩)))

/-- The functions of the module as the database sees them. -/
def view (g : GFn) : DB.Fun := ⟨g.id, g.name, g.params.length, g.blocks.map (fun b => b.map Prod.fst)⟩

/-- The database with the module as it is now. -/
def sync (db : DB.IRDB) (m : GMod) : DB.IRDB := { db with mod := ⟨db.mod.globals, m.fns.map view⟩ }

/-- `IRDB.insertFunction(F)` with preprocessing, the default (`LLVMProjectIRDB.h:104`). -/
def insertInto (m : GMod) (db : DB.IRDB) (f : Nat) : Option DB.IRDB :=
  (fnOf m f).bind (fun g => DB.insertFunction (sync db m) (view g) true)

/-- `buildModel`, `GlobalCtorsDtorsModel.cpp:219-346`: the generated functions are entered into the database.  In the code each
is entered right after it was built, here all are at the end in the same order.  The slot tracker is in
`Verif/DB/SlotTracker.lean`. -/
def buildModel (lossless : Nat → Nat → Bool) (m : GMod) (db : DB.IRDB) (es : List Nat) : Option (Built × DB.IRDB) :=
  (buildIR lossless m es).bind (fun b => (b.inserted.foldlM (insertInto b.mod) db).map (fun d => (b, d)))

/-- `getEntryFunctionsMut`, `EntryFunctionUtils.cpp:40-72`: the functions with these names that have a body, or for the single name
`__ALL__` those with a body and a name that have external linkage or are called `main`. -/
def getEntryFunctions (m : GMod) (names : List Str) : List Nat :=
  if names = [ascii "__ALL__"] then
    (m.fns.filter (fun f => f.blocks ≠ [] ∧ f.name ≠ [] ∧ (f.extern ∨ f.name = ascii "main"))).filterMap
      (fun f => (fnNamed m f.name).map GFn.id)
  else names.filterMap (fun n => (fnNamed m n).bind (fun f => if f.blocks ≠ [] then some f.id else none))

/-- `isPhasarGenerated`, `GlobalCtorsDtorsModel.cpp:354-365`. -/
def isPhasarGenerated (name : Str) : Bool :=
  name ≠ [] && (name = modelName || name = dtorModelName || name = dtorsCallerName || name = selectorName)

/-! ### Specification -/

/-- An event of an execution: a function of the program is called with these arguments. -/
abbrev Event := Nat × List Opnd

/-- The blocks of a function without the identities of the instructions. -/
def GFn.kinds (g : GFn) : List (List Kind) := g.blocks.map (fun b => b.map Prod.snd)

/-- Executions of generated code: from the rest of a block of a function with the blocks `bs` to its return, with the calls of
functions that are not generated.  `gen` are the blocks of the generated functions.  The value switched on is arbitrary.  An
execution that reaches `unreachable` does not count. -/
inductive Run (gen : Nat → Option (List (List Kind))) : List (List Kind) → List Kind → List Event → Prop
  | ret {bs r} : Run gen bs (.ret :: r) []
  | ext {bs f as r t} : gen f = none → Run gen bs r t → Run gen bs (.call f as :: r) ((f, as) :: t)
  | int {bs f as r bs' b' t t'} : gen f = some bs' → bs'.head? = some b' → Run gen bs' b' t → Run gen bs r t' →
      Run gen bs (.call f as :: r) (t ++ t')
  | br {bs k r b t} : bs[k]? = some b → Run gen bs b t → Run gen bs (.br k :: r) t
  | switch {bs cs d r i k b t} : cs.lookup i = some k → bs[k]? = some b → Run gen bs b t → Run gen bs (.switch cs d :: r) t
  | default {bs cs d r i b t} : cs.lookup i = none → bs[d]? = some b → Run gen bs b t → Run gen bs (.switch cs d :: r) t

/-- The functions generated by a build, with their blocks. -/
def Built.gen (b : Built) (f : Nat) : Option (List (List Kind)) :=
  if f ∈ b.inserted then (fnOf b.mod f).map GFn.kinds else none

/-- Executions of the model. -/
def Built.Runs (b : Built) (t : List Event) : Prop :=
  ∃ g blk, fnOf b.mod b.model = some g ∧ g.kinds.head? = some blk ∧ Run b.gen g.kinds blk t

/-- Specification: `L` are the pairs `ds` of priority and function in the order of priorities given by `le`, equal priorities in
the order of `ds`. -/
def Ordered (le : Nat → Nat → Prop) (ds L : List (Nat × Nat)) : Prop :=
  L.Pairwise (fun a b => le a.1 b.1) ∧ ∀ p, L.filter (fun d => d.1 = p) = ds.filter (fun d => d.1 = p)

/-- Specification: the elements of `llvm.global_ctors` or `llvm.global_dtors` that have a priority and a function. -/
def declared (v : Option (List (Option Desc))) : List (Nat × Nat) :=
  (v.getD []).filterMap (fun d => d.bind (fun e => e.prio.bind (fun p => e.fn.map (fun f => (p, f)))))

/-- Specification: the destructor and argument registered by a user of `__cxa_atexit`. -/
def User.reg (u : User) : Option (Nat × Opnd) :=
  match u.call, u.args with
  | true, a :: b :: _ => match stripExpr a with
    | .fn f _ => some (f, stripExpr b)
    | _ => none
  | _, _ => none

/-- Specification: the registered destructors: those of global variables, then those of local ones. -/
def registered (m : GMod) : List (Nat × Opnd) :=
  (((m.atexit.getD []).filter (fun u => varInit <:+: u.inName)) ++
    ((m.atexit.getD []).filter (fun u => ¬ varInit <:+: u.inName))).filterMap User.reg

/-- Specification: the call of a registered destructor, if the type of its argument allows it. -/
def regEvent (lossless : Nat → Nat → Bool) (m : GMod) (d : Nat × Opnd) : Option Event :=
  match (fnOf m d.1).map GFn.params with
  | some [t] => if d.2.ty = t then some (d.1, [d.2]) else if lossless d.2.ty t then some (d.1, [.expr d.2 t]) else none
  | _ => none

/-- Specification: the call of an entry point: functions without parameters, and `main` with two, which gets the arguments of the
model.  All others are not called. -/
def entryEvents (model : Nat) (f : GFn) : List Event :=
  if f.params = [] then [(f.id, [])]
  else if f.name = ascii "main" ∧ f.params.length = 2 then [(f.id, [.loc model 0 0, .loc model 1 1])] else []

/-- Specification: the names of the generated functions are not in use, and `next` is above all identities. -/
structure Fresh (m : GMod) : Prop where
  ids : ∀ g ∈ m.fns, g.id < m.next
  insts : ∀ g ∈ m.fns, ∀ b ∈ g.blocks, ∀ p ∈ b, p.1 < m.next
  names : ∀ g ∈ m.fns, g.name ≠ modelName ∧ g.name ≠ dtorModelName ∧ g.name ≠ selectorName ∧
    g.name ≠ dtorsCallerName ++ 46 :: reducedName m.name

/-- Specification: what the assertions require: constructors and destructors have no parameters, registered ones have one, calls of
`__cxa_atexit` have two arguments, there are entry points, and all these are functions of the module. -/
structure Valid (m : GMod) (es : List Nat) : Prop where
  ctors : ∀ d ∈ declared m.ctors, ∃ g, fnOf m d.2 = some g ∧ g.params = []
  dtors : ∀ d ∈ declared m.dtors, ∃ g, fnOf m d.2 = some g ∧ g.params = []
  calls : ∀ u ∈ m.atexit.getD [], u.call = true → 2 ≤ u.args.length
  regs : ∀ d ∈ registered m, ∃ g t, fnOf m d.1 = some g ∧ g.params = [t]
  entries : ∀ e ∈ es, ∃ g, fnOf m e = some g
  some_entry : es ≠ []

/-- Specification: the traces of the model: the constructors by ascending priority, the choice of the entry point if there are
several, the entry point, and after `main` the destructors by descending priority and then the registered ones, last first. -/
def Trace (lossless : Nat → Nat → Bool) (m : GMod) (es : List Nat) (model sel : Nat) (C D : List (Nat × Nat)) (t : List Event) : Prop :=
  ∃ e ∈ es, ∃ f, fnOf m e = some f ∧
    t = C.map (fun d => (d.2, [])) ++ (if es.length = 1 then [] else [(sel, [])]) ++ entryEvents model f ++
      if f.name = ascii "main" then D.map (fun d => (d.2, [])) ++ (registered m).reverse.filterMap (regEvent lossless m) else []

end Phasar.Globals
