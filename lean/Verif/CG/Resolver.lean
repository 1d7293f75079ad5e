import Verif.TH.Struct
import Verif.CG.TypeGraph

/-!
# Resolution of indirect calls

`lib/PhasarLLVM/ControlFlow/Resolver/{Resolver,CHAResolver,RTAResolver,DTAResolver,OTFResolver,NOResolver}.cpp`, the tables of virtual
functions (`lib/PhasarLLVM/ControlFlow/LLVMVFTableProvider.cpp`, `lib/PhasarLLVM/TypeHierarchy/LLVMVFTable.cpp`) and the comparison of
signatures (`lib/PhasarLLVM/Utils/LLVMShorthands.cpp:69-130`).

The IR is represented by what these functions look at.  Demangling is applied beforehand.  Sets are lists.  Alias sets are a parameter.
The log output is left out.
-/

namespace Phasar.Resolver

/-! ## Types and signatures -/

/-- `llvm::Type`: integers, structs (by identity), typed pointers, the opaque pointer, and the rest: a type ID of its own and an identity. -/
inductive Ty where
  | int (w : Nat)
  | struct (id : Nat)
  | ptr (elem : Ty)
  | opq
  | other (tid id : Nat)
deriving DecidableEq, Repr

/-- `Type::getTypeID()`, used in LLVMShorthands.cpp:84. -/
def typeId : Ty → Nat
  | .int _ => 0
  | .struct _ => 1
  | .ptr _ => 2
  | .opq => 2
  | .other t _ => t + 3

/-- `Type::isPointerTy()`. -/
def isPtr : Ty → Bool
  | .ptr _ => true
  | .opq => true
  | _ => false

/-- `isTypeMatchForFunctionArgument`, LLVMShorthands.cpp:77-106. -/
def typeMatch (actual formal : Ty) : Bool :=
  if actual = formal then true
  else if typeId actual ≠ typeId formal then false
  else match actual, formal with
    | .opq, _ => true
    | _, .opq => true
    | .ptr a, .ptr f => if f = .int 8 then true else typeMatch a f
    | .struct _, _ => true
    | _, _ => false

/-- `llvm::Function`: identity, name (empty if it has none), types of the formals, return type, `isVarArg()`, `hasAddressTaken()`. -/
structure Fn where
  id : Nat
  name : String
  params : List Ty
  ret : Ty
  vararg : Bool
  taken : Bool
deriving DecidableEq, Repr

/-- `matchesSignature(F, FType, false)`, LLVMShorthands.cpp:108-130: `params` and `ret` are those of `FType`. -/
def matchesSignature (f : Fn) (params : List Ty) (ret : Ty) : Bool :=
  if f.params.length = params.length ∧ f.ret = ret then
    (params.zip f.params).all fun p => typeMatch p.1 p.2
  else false

/-- The pointer operand of a load: a `GetElementPtrInst` whose operand 1 is a `ConstantInt` with that zero-extended value, or not; or anything
else, such as a constant expression (Resolver.cpp:49-54). -/
inductive PtrOp where
  | gep (op1 : Option Nat)
  | other
deriving DecidableEq, Repr

/-- `getCalledOperand()`: a load, or anything else (Resolver.cpp:44-48). -/
inductive Called where
  | load (p : PtrOp)
  | other
deriving DecidableEq, Repr

/-- `llvm::CallBase`: types of the actual arguments, `hasStructRetAttr()`, parameter types and return type of `getFunctionType()`, and the
called operand. -/
structure Call where
  args : List Ty
  sret : Bool
  params : List Ty
  ret : Ty
  called : Called
deriving DecidableEq, Repr

/-- `getVFTIndex`, Resolver.cpp:41-58.  The value is narrowed to `unsigned`. -/
def getVFTIndex (c : Call) : Option Nat :=
  match c.called with
  | .load (.gep (some n)) => some (n % 2 ^ 32)
  | _ => none

/-- `getReceiverType`, Resolver.cpp:60-87. -/
def getReceiverType (c : Call) : Option Nat :=
  if c.args.length = 0 ∨ (c.sret = true ∧ c.args.length < 2) then none
  else match c.args[c.sret.toNat]? with
    | some (.ptr (.struct t)) => some t
    | _ => none

/-- `isConsistentCall`, Resolver.cpp:97-109. -/
def isConsistentCall (c : Call) (f : Fn) : Bool :=
  if c.args.length < f.params.length then false
  else if c.args.length ≠ f.params.length ∧ f.vararg = false then false
  else if !matchesSignature f c.params c.ret then false
  else true

/-! ## Tables of virtual functions -/

/-- What a cast in a virtual table refers to (LLVMVFTable.cpp:89-94): a function, a `GlobalAlias` of something, or anything else. -/
inductive Target where
  | fn (f : Fn)
  | alias (t : Target)
  | other
deriving DecidableEq, Repr

/-- An entry of a `ConstantArray` of a virtual table: a bitcast expression, the symbol itself without a cast (as with opaque pointers), or
anything else, such as `null` or `inttoptr` (LLVMVFTable.cpp:86-100). -/
inductive Entry where
  | bitcast (t : Target)
  | direct (t : Target)
  | other
deriving DecidableEq, Repr

/-- An operand of the initializer of a virtual table: a `ConstantArray`, or anything else (LLVMVFTable.cpp:80). -/
inductive Comp where
  | array (es : List Entry)
  | other
deriving DecidableEq, Repr

/-- The loop over aliases and the cast to `Function`, LLVMVFTable.cpp:89-93. -/
def aliasee : Target → Option Fn
  | .fn f => some f
  | .alias t => aliasee t
  | .other => none

/-- One step of the inner loop, LLVMVFTable.cpp:85-100. -/
def entryFn : Entry → Option Fn
  | .bitcast t => aliasee t
  | _ => none

/-- `getVFVectorFromIRVTable`, LLVMVFTable.cpp:76-105.  `none`: the iterator starts beyond the end, which is undefined. -/
def getVFVector : List Comp → Option (List (Option Fn))
  | [] => some []
  | .array es :: cs =>
    if es.length < 2 then none
    else (getVFVector cs).map fun r => (es.drop 2).map entryFn ++ r
  | .other :: cs => getVFVector cs

/-- The initializer of a global variable: a `ConstantStruct`, or anything else. -/
inductive VInit where
  | struct (cs : List Comp)
  | other
deriving DecidableEq, Repr

/-- A global variable for which `isVTable` holds (LLVMTypeHierarchy.cpp:186-193): the demangled name without `vtable for ` or `_ZTV`, and the
initializer, if there is one. -/
structure VGlobal where
  clear : List Char
  init : Option VInit
deriving DecidableEq, Repr

/-- The module: struct types and type infos (as in C44), and virtual tables in the order of the globals. -/
structure Mod where
  th : TH.SMod
  vts : List VGlobal

/-- `ClearNameTVMap`, LLVMVFTableProvider.cpp:39-47, and the lookup in line 19: `try_emplace` keeps the first variable. -/
def tvByName (m : Mod) (c : List Char) : Option VGlobal := m.vts.find? fun v => v.clear = c

/-- `getVirtualFunctions`, LLVMVFTableProvider.cpp:14-35.  `none`: undefined behaviour in `getVFVectorFromIRVTable`. -/
def virtualFunctions (m : Mod) (t : Nat) : Option (List (Option Fn)) :=
  match tvByName m (TH.clearName (m.th.name t)) with
  | none => some []
  | some v => match v.init with
    | none => some []
    | some .other => some []
    | some (.struct cs) => getVFVector cs

/-- `TypeVFTMap` of `LLVMVFTableProvider`. -/
abbrev Provider := List (Nat × List (Option Fn))

/-- The constructor, LLVMVFTableProvider.cpp:37-52: an entry for every identified struct type. -/
def buildProvider (m : Mod) : Option Provider :=
  m.th.structs.mapM fun t => (virtualFunctions m t).map fun r => (t, r)

/-- `getVFTableOrNull`, LLVMVFTableProvider.cpp:61-65. -/
def getVFTable (v : Provider) (t : Nat) : Option (List (Option Fn)) := v.lookup t

/-- `hasVFTable`, LLVMVFTableProvider.cpp:57-59. -/
def hasVFTable (v : Provider) (t : Nat) : Bool := (v.lookup t).isSome

/-- `LLVMVFTable::getFunction`, LLVMVFTable.cpp:27-32. -/
def getFunction (vft : List (Option Fn)) (i : Nat) : Option Fn :=
  if i < vft.length then vft[i]?.join else none

/-- `PureVirtualCallName`, LLVMTypeHierarchy.h:96-97. -/
def pureName : String := "__cxa_pure_virtual"

/-- `getNonPureVirtualVFTEntry`, Resolver.cpp:137-151. -/
def nonPureEntry (v : Provider) (t i : Nat) (c : Call) : Option Fn :=
  match getVFTable v t with
  | none => none
  | some vft => match getFunction vft i with
    | none => none
    | some f => if f.name ≠ pureName ∧ isConsistentCall c f = true then some f else none

/-- `isVirtualCall`, Resolver.cpp:111-128, for a call.  An empty optional is less than any value. -/
def isVirtualCall (v : Provider) (c : Call) : Bool :=
  match getReceiverType c with
  | none => false
  | some t => if !hasVFTable v t then false else (getVFTIndex c).isSome

/-! ## Resolvers -/

/-- `Resolver::resolveIndirectCall`, Resolver.cpp:160-166: `virt` and `fptr` are the results of the two virtual methods. -/
def resolveIndirectCall (v : Provider) (c : Call) (virt fptr : List Fn) : List Fn :=
  if isVirtualCall v c then virt else fptr

/-- `Resolver::resolveFunctionPointer`, Resolver.cpp:168-184: `fns` are all functions of the module. -/
def resolveFunctionPointer (fns : List Fn) (c : Call) : List Fn :=
  fns.filter fun f => f.taken && isConsistentCall c f

/-- `CHAResolver::resolveVirtualCall`, CHAResolver.cpp:43-81: `sub` is `TH->getSubTypes`, with the empty set for a null pointer. -/
def cha (v : Provider) (sub : Nat → List Nat) (c : Call) : List Fn :=
  match getVFTIndex c with
  | none => []
  | some i => match getReceiverType c with
    | none => []
    | some t => (sub t).filterMap fun d => nonPureEntry v d i c

/-- `RTAResolver::resolveVirtualCall`, RTAResolver.cpp:45-93: `alloc` is `AllocatedStructTypes`. -/
def rta (v : Provider) (sub : Nat → List Nat) (alloc : List Nat) (c : Call) : List Fn :=
  match getVFTIndex c with
  | none => []
  | some i =>
    let reach := match getReceiverType c with
      | none => []
      | some t => sub t
    let r := alloc.filterMap fun d => if d ∈ reach then nonPureEntry v d i c else none
    if r.isEmpty then cha v sub c else r

/-- `NOResolver`, NOResolver.cpp:31-39. -/
def noResolve (_ : Call) : List Fn := []

/-- A user of the result of an allocation: a `BitCastInst` with its type and, for each of its users that is a call, the types of the formals of
the called function if it is known; or any other user (RTAResolver.cpp:123-137). -/
inductive AUser where
  | bitcast (dest : Ty) (calls : List (Option (List Ty)))
  | other
deriving DecidableEq, Repr

/-- An instruction: an `alloca`, a call with the name of the called function, if it is known, and the users of the result; or any other
(RTAResolver.cpp:107-113). -/
inductive AInst where
  | alloca (t : Ty)
  | call (callee : Option String) (users : List AUser)
  | other
deriving DecidableEq, Repr

/-- `isHeapAllocatingFunction`, LLVMShorthands.cpp:69-73. -/
def isHeapAllocating (n : String) : Bool :=
  n = "_Znwm" || n = "_Znam" || n = "_ZnwPv" || n = "malloc" || n = "calloc" || n = "realloc"

/-- The loop over the users of a cast to `dest`, a pointer to the struct `t`, RTAResolver.cpp:132-145.  `none`: a called function without
formals, where a null pointer is dereferenced. -/
def ctorCalls (dest : Ty) (t : Nat) : List (Option (List Ty)) → Option (List Nat)
  | [] => some []
  | none :: cs => ctorCalls dest t cs
  | some [] :: _ => none
  | some (p :: _) :: cs => (ctorCalls dest t cs).map fun r => if p = dest then t :: r else r

/-- The loop over the users of an allocation, RTAResolver.cpp:123-146.  `none`: as above, or a cast to something that is not a pointer. -/
def allocUsers : List AUser → Option (List Nat)
  | [] => some []
  | .other :: us => allocUsers us
  | .bitcast (.ptr (.struct t)) calls :: us => match ctorCalls (.ptr (.struct t)) t calls, allocUsers us with
    | some a, some b => some (a ++ b)
    | _, _ => none
  | .bitcast d _ :: us => if isPtr d then allocUsers us else none

/-- `resolveAllocatedStructTypes`, RTAResolver.cpp:98-155, over all instructions of the module. -/
def allocated : List AInst → Option (List Nat)
  | [] => some []
  | .alloca (.struct t) :: is => (allocated is).map fun r => t :: r
  | .call (some n) us :: is =>
    if isHeapAllocating n then match allocUsers us, allocated is with
      | some a, some b => some (a ++ b)
      | _, _ => none
    else allocated is
  | _ :: is => allocated is

/-! ## DTA -/

/-- `find_last(…, pat)` finds something: `pat` occurs in the name. -/
def occurs (pat : List Char) : List Char → Bool
  | [] => pat.isEmpty
  | c :: cs => pat.isPrefixOf (c :: cs) || occurs pat cs

/-- `isConstructor`, lib/Utils/Utilities.cpp:38-65. -/
def isConstructor (n : String) : Bool :=
  occurs ['C', '2', 'E'] n.toList || occurs ['C', '1', 'E'] n.toList || occurs ['C', '2', 'E'] n.toList

/-- `legacy::stripPointer`, Utilities.cpp:67-77.  `none`: the assertion fails. -/
def stripPointer : Ty → Option Ty
  | .ptr e => stripPointer e
  | .opq => none
  | t => some t

/-- A `BitCastInst`: source and destination type, the name and the types of the formals of its function, and whether it comes behind the last
store of a virtual table in that function (`BitcastNum > VtableNum`, DTAResolver.cpp:106-141). -/
structure BitCast where
  src : Ty
  dest : Ty
  caller : String
  formals : List Ty
  late : Bool
deriving DecidableEq, Repr

/-- `heuristicAntiConstructorThisType`, DTAResolver.cpp:43-62.  `none`: `getParamType(0)` without parameters. -/
def antiThis (b : BitCast) : Option Bool :=
  if isConstructor b.caller then
    match b.formals with
    | [] => none
    | t :: _ => some (if t = b.src then false else true)
  else some true

/-- `heuristicAntiConstructorVtablePos`, DTAResolver.cpp:64-142. -/
def antiVtable (v : Provider) (b : BitCast) : Option Bool :=
  match antiThis b with
  | none => none
  | some true => some true
  | some false =>
    if b.src = .opq then some b.late
    else match stripPointer b.src with
      | none => none
      | some (.struct t) => if hasVFTable v t then some false else some b.late
      | some _ => some b.late

/-- `DTAResolver::otherInst`, DTAResolver.cpp:144-165: the link that is added, if any.  `none`: an assertion fails. -/
def otherInst (v : Provider) (b : BitCast) : Option (Option (Nat × Nat)) :=
  if b.dest = .opq then some none
  else match stripPointer b.src, stripPointer b.dest with
    | some (.struct s), some (.struct d) => match antiVtable v b with
      | none => none
      | some true => some (some (d, s))
      | some false => some none
    | some _, some _ => some none
    | _, _ => none

/-- The struct type as the type graph sees it. -/
def stype (th : TH.SMod) (t : Nat) : TypeGraph.SType := ⟨t, !th.structs.contains t, String.ofList (th.name t)⟩

/-- `DTAResolver::resolveVirtualCall`, DTAResolver.cpp:167-220, with the type graph `g`.  A missing receiver type would be dereferenced in
`getTypes`: `none`. -/
def dta (v : Provider) (th : TH.SMod) (sub : Nat → List Nat) (g : TypeGraph.Graph) (c : Call) : Option (List Fn) :=
  match getVFTIndex c with
  | none => some []
  | some i => match getReceiverType c with
    | none => none
    | some t =>
      let r := (TypeGraph.getTypesC g (stype th t)).2.filterMap fun s => nonPureEntry v s.id i c
      some (if r.isEmpty then cha v sub c else r)

/-! ## OTF -/

/-- A value in an alias set, as `OTFResolver::resolveVirtualCall` looks at it (OTFResolver.cpp:91-96): a global variable with a name that
starts with `_ZTV` or not, and its initializer; or anything else. -/
inductive PVal where
  | global (ztv : Bool) (init : Option VInit)
  | other
deriving DecidableEq, Repr

/-- The body of the loop, OTFResolver.cpp:90-111.  `none`: undefined behaviour in `getVFVectorFromIRVTable`. -/
def otfEntry (i : Nat) (c : Call) : PVal → Option (List Fn)
  | .global true (some (.struct cs)) => match getVFVector cs with
    | none => none
    | some vfs =>
      if i ≥ vfs.length then some []
      else match vfs[i]? with
        | some (some f) =>
          if f.name = "" ∨ f.name = pureName ∨ isConsistentCall c f = false then some [] else some [f]
        | _ => some []
  | _ => some []

/-- `OTFResolver::resolveVirtualCall`, OTFResolver.cpp:68-114: `pts` is the alias set of the called operand. -/
def otfVirtual (pts : List PVal) (c : Call) : Option (List Fn) :=
  match getVFTIndex c with
  | none => some []
  | some i => (pts.mapM (otfEntry i c)).map List.flatten

/-- A value, by kind: a function, a global variable with its initializer, a constant expression (`isCast()`, has it pointer type, operands), a
`ConstantAggregate` with its operands, another constant, or no constant (OTFResolver.cpp:132-204). -/
inductive Val where
  | fn (f : Fn)
  | gvar (init : Option Nat)
  | expr (cast ptr : Bool) (ops : List Nat)
  | agg (ops : List Nat)
  | other
  | nonConst
deriving DecidableEq, Repr

/-- `dyn_cast<ConstantAggregate>`. -/
def isAgg (K : Nat → Val) (a : Nat) : Bool :=
  match K a with
  | .agg _ => true
  | _ => false

/-- The functions that are inserted for an operand of an aggregate, OTFResolver.cpp:179-192. -/
def opFns (K : Nat → Val) (c : Call) (o : Nat) : List Fn :=
  match K o with
  | .expr true true (o' :: _) => match K o' with
    | .fn f => if isConsistentCall c f then [f] else []
    | _ => []
  | .fn f => if isConsistentCall c f then [f] else []
  | _ => []

/-- The aggregates that are added to the worklist for an operand, OTFResolver.cpp:193-203. -/
def opAggs (K : Nat → Val) (o : Nat) : List Nat :=
  match K o with
  | .agg _ => [o]
  | .gvar (some i) => if isAgg K i then [i] else []
  | _ => []

/-- The loop, OTFResolver.cpp:172-205.  The top of the worklist is the head of the list.  `none`: out of fuel. -/
def aggLoop (K : Nat → Val) (c : Call) : Nat → List Nat → List Nat → List Fn → Option (List Fn)
  | _, [], _, r => some r
  | 0, _ :: _, _, _ => none
  | n + 1, a :: wl, seen, r =>
    if a ∈ seen then aggLoop K c n wl seen r
    else match K a with
      | .agg ops => aggLoop K c n ((ops.flatMap (opAggs K)).reverse ++ wl) (a :: seen) (r ++ ops.flatMap (opFns K c))
      | _ => aggLoop K c n wl (a :: seen) r

/-- `GlobalVariableWL` for one value, OTFResolver.cpp:145-153. -/
def rootVars (K : Nat → Val) (p : Nat) : List Nat :=
  match K p with
  | .gvar _ => [p]
  | .expr _ _ ops => ops.filter fun o => match K o with
    | .gvar _ => true
    | _ => false
  | _ => []

/-- `ConstantAggregateWL` before the loop, OTFResolver.cpp:159-168. -/
def rootAggs (K : Nat → Val) (p : Nat) : List Nat :=
  (rootVars K p).filterMap fun g => match K g with
    | .gvar (some i) => if isAgg K i then some i else none
    | _ => none

/-- OTFResolver.cpp:139-143: the value itself. -/
def ownFn (K : Nat → Val) (c : Call) (p : Nat) : List Fn :=
  match K p with
  | .fn f => if isConsistentCall c f then [f] else []
  | _ => []

/-- `OTFResolver::resolveFunctionPointer`, OTFResolver.cpp:116-209: `pts` is the alias set of the called operand. -/
def otfPointer (K : Nat → Val) (c : Call) (fuel : Nat) : List Nat → List Fn → Option (List Fn)
  | [], r => some r
  | p :: pts, r =>
    match aggLoop K c fuel (rootAggs K p).reverse [] (r ++ ownFn K c p) with
    | none => none
    | some r' => otfPointer K c fuel pts r'

/-- The second component of a pair: a formal, or the `va_list` variable of the callee. -/
inductive Formal where
  | arg (i : Nat)
  | pack
deriving DecidableEq, Repr

/-- The first loop of `getActualFormalPointerPairs`, OTFResolver.cpp:242-249. -/
def pairsArgs : Nat → List Ty → List Ty → List (Nat × Formal)
  | i, a :: as, f :: fs => (if isPtr a && isPtr f then [(i, .arg i)] else []) ++ pairsArgs (i + 1) as fs
  | _, _, _ => []

/-- The second loop, OTFResolver.cpp:273-277, from index `i` on. -/
def pairsPack : Nat → List Ty → List (Nat × Formal)
  | i, a :: as => (if isPtr a then [(i, .pack)] else []) ++ pairsPack (i + 1) as
  | _, [] => []

/-- `getActualFormalPointerPairs`, OTFResolver.cpp:234-281: `hasPack` says that the callee contains an `alloca` of an array of
`struct.__va_list_tag` (lines 257-270). -/
def actualFormalPairs (c : Call) (f : Fn) (hasPack : Bool) : List (Nat × Formal) :=
  pairsArgs 0 c.args f.params ++
    if f.vararg && hasPack then pairsPack (min c.args.length f.params.length) (c.args.drop (min c.args.length f.params.length)) else []

/-! ## Specification -/

/-- When an argument of the first type can be passed for a formal of the second one: equal types, any pointer for an opaque one or for `i8*`
and the other way round for opaque pointers, pointers to such types, and any two structs. -/
inductive Match : Ty → Ty → Prop
  | refl (t : Ty) : Match t t
  | opaqueL (t : Ty) : Match .opq (.ptr t)
  | opaqueR (t : Ty) : Match (.ptr t) .opq
  | void (t : Ty) : Match (.ptr t) (.ptr (.int 8))
  | ptr {a f : Ty} : Match a f → Match (.ptr a) (.ptr f)
  | struct (s t : Nat) : Match (.struct s) (.struct t)

/-- The symbol stands for the function. -/
inductive Denotes : Target → Fn → Prop
  | fn (f : Fn) : Denotes (.fn f) f
  | alias {t : Target} {f : Fn} : Denotes t f → Denotes (.alias t) f

/-- The entry of a virtual table stands for the function, with or without a cast. -/
def Entry.Denotes (e : Entry) (f : Fn) : Prop :=
  ∃ t, (e = .bitcast t ∨ e = .direct t) ∧ Resolver.Denotes t f

/-- Calling convention for virtual functions (Itanium C++ ABI): the pointer in the object leads to the entry at position `ap` of array `j` of
the virtual table; the function called is `i` entries further on. -/
def Calls (cs : List Comp) (j ap i : Nat) (f : Fn) : Prop :=
  ∃ es e, cs[j]? = some (.array es) ∧ es[ap + i]? = some e ∧ e.Denotes f

/-- The call site fits the function: as many arguments as formals, or more of them for a function with variable arguments; as many parameters in
the type of the call as formals; equal return types; matching types. -/
structure Fits (c : Call) (f : Fn) : Prop where
  args : c.args.length = f.params.length ∨ (f.params.length < c.args.length ∧ f.vararg = true)
  params : c.params.length = f.params.length
  ret : f.ret = c.ret
  types : ∀ (i : Nat) (a b : Ty), c.params[i]? = some a → f.params[i]? = some b → Match a b

/-- Aggregates to start from: initializers of the variables in the alias set, or of variables that are operands of expressions in it. -/
def Root (K : Nat → Val) (pts : List Nat) (a : Nat) : Prop :=
  ∃ p ∈ pts, ∃ ops, K a = .agg ops ∧
    (K p = .gvar (some a) ∨ ∃ k t os o, K p = .expr k t os ∧ o ∈ os ∧ K o = .gvar (some a))

/-- Aggregate `b` is an operand of `a`, or the initializer of a variable that is an operand of `a`. -/
def Inside (K : Nat → Val) (a b : Nat) : Prop :=
  ∃ ops o ops', K a = .agg ops ∧ o ∈ ops ∧ K b = .agg ops' ∧ (o = b ∨ K o = .gvar (some b))

/-- The function is an operand of the aggregate, or the operand of a cast to a pointer that is. -/
def Holds (K : Nat → Val) (a : Nat) (f : Fn) : Prop :=
  ∃ ops o, K a = .agg ops ∧ o ∈ ops ∧ (K o = .fn f ∨ ∃ o' os, K o = .expr true true (o' :: os) ∧ K o' = .fn f)

/-- Number of functions that the arrays among `cs` contribute: all entries but the first two. -/
def width : List Comp → Nat
  | [] => 0
  | .array es :: cs => (es.length - 2) + width cs
  | .other :: cs => width cs

/-- Entry `i` of the concatenated arrays, without the first two entries of each, is a cast of the function. -/
def Slot (cs : List Comp) (i : Nat) (f : Fn) : Prop :=
  ∃ j es k t, cs[j]? = some (.array es) ∧ i = width (cs.take j) + k ∧ es[2 + k]? = some (.bitcast t) ∧ Denotes t f

/-- `cs` is the initializer of the first variable that is called the virtual table for the name of `t`. -/
def VTableOf (m : Mod) (t : Nat) (cs : List Comp) : Prop :=
  ∃ (k : Nat) (v : VGlobal), m.vts[k]? = some v ∧ v.clear = TH.clearName (m.th.name t) ∧ v.init = some (.struct cs) ∧
    ∀ (k' : Nat) (v' : VGlobal), k' < k → m.vts[k']? = some v' → v'.clear ≠ v.clear

/-- The call loads the function from entry `n` of a table, and its receiver is a pointer to the struct `s`. -/
def VCall (c : Call) (n s : Nat) : Prop :=
  c.called = .load (.gep (some n)) ∧ c.args[if c.sret then 1 else 0]? = some (.ptr (.struct s))

/-- What counts as an allocation of the struct. -/
def AllocSite (d : Nat) (i : AInst) : Prop :=
  i = .alloca (.struct d) ∨ ∃ n us calls ps, i = .call (some n) us ∧ n ∈ ["_Znwm", "_Znam", "_ZnwPv", "malloc", "calloc", "realloc"] ∧
    AUser.bitcast (.ptr (.struct d)) calls ∈ us ∧ some (Ty.ptr (.struct d) :: ps) ∈ calls

/-- A pointer, a pointer to a pointer, and so on, to the struct; or the struct itself. -/
inductive PointsTo : Ty → Nat → Prop
  | here (s : Nat) : PointsTo (.struct s) s
  | ptr {t : Ty} {s : Nat} : PointsTo t s → PointsTo (.ptr t) s

/-- The name contains the text. -/
def Contains (n pat : List Char) : Prop := ∃ p s, n = p ++ pat ++ s

end Phasar.Resolver
