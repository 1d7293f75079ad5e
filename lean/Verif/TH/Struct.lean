import Verif.TH.DI
/-!
# The type hierarchy from struct types and type-info variables, and the serialized hierarchies

Model of `lib/PhasarLLVM/TypeHierarchy/LLVMTypeHierarchy.cpp` (construction, queries, serialization) and of the
serialization in `lib/PhasarLLVM/TypeHierarchy/DIBasedTypeHierarchy.cpp`.

Names are lists of characters.  Left out: demangling (`llvm::demangle` is applied to the names beforehand), virtual tables
of `LLVMTypeHierarchy`, JSON text.
-/
namespace Phasar.TH

/-- `removeStructOrClassPrefix` (`LLVMTypeHierarchy.cpp:146-155`). -/
def clearName (n : List Char) : List Char :=
  if "struct.".toList.isPrefixOf n then n.drop 7
  else if "class.".toList.isPrefixOf n then n.drop 6
  else n

/-- An operand of the initializer of a type-info variable (`LLVMTypeHierarchy.cpp:233-247`): a bitcast of a variable with
`_ZTI` in its name, with the name behind `typeinfo for` (`bitcast`); or anything else, such as the same variable without a
cast (`direct`), or an integer (`other`). -/
inductive TIOp where
  | bitcast (clear : List Char)
  | direct (clear : List Char)
  | other
deriving DecidableEq, Repr

/-- A type-info variable: the name of its type and its initializer, if it has one (`LLVMTypeHierarchy.cpp:286-292, 224-232`). -/
structure TI where
  clear : List Char
  init : Option (List TIOp)
deriving DecidableEq, Repr

/-- The module: identified struct types in order, their names, and the type-info variables in order. -/
structure SMod where
  structs : List Nat
  name : Nat → List Char
  tis : List TI

/-- `ClearNameTypeMap` (`LLVMTypeHierarchy.cpp:283-285`): later types overwrite earlier ones. -/
def typeByName (m : SMod) (c : List Char) : Option Nat :=
  (m.structs.filter fun t => clearName (m.name t) = c).getLast?

/-- `ClearNameTIMap` (`LLVMTypeHierarchy.cpp:286-292`): later variables overwrite earlier ones. -/
def tiByName (m : SMod) (c : List Char) : Option TI :=
  (m.tis.filter fun t => t.clear = c).getLast?

/-- `getSubTypes(M, Type)` (`LLVMTypeHierarchy.cpp:217-253`): despite its name the types named in the type info of `Type`, that
is its direct bases. -/
def basesOf (m : SMod) (t : Nat) : List Nat :=
  match tiByName m (clearName (m.name t)) with
  | none => []
  | some ti =>
    match ti.init with
    | none => []
    | some ops => ops.filterMap fun o => match o with
      | .bitcast c => typeByName m c
      | _ => none

/-- The edges of the graph: from base to derived (`LLVMTypeHierarchy.cpp:310-320`). -/
def edgesOf (m : SMod) : List (Nat × Nat) :=
  m.structs.flatMap fun t => (basesOf m t).map fun b => (b, t)

/-- Adds targets of edges until nothing is left to add.  Stands for `boost::transitive_closure` together with the insertion of
the vertex itself (`LLVMTypeHierarchy.cpp:203-214, 65-67`); boost's own algorithm is not modelled. -/
def close (es : List (Nat × Nat)) : Nat → List Nat → List Nat
  | 0, s => s
  | n + 1, s =>
    match es.find? fun e => decide (e.1 ∈ s ∧ e.2 ∉ s) with
    | none => s
    | some e => close es n (e.2 :: s)

/-- `ReachableTypes` of a vertex (`LLVMTypeHierarchy.cpp:65-67, 203-214`). -/
def reachable (m : SMod) (t : Nat) : List Nat := close (edgesOf m) m.structs.length [t]

/-- `getSubTypes(Type)` (`LLVMTypeHierarchy.cpp:322-330`). -/
def sSubTypes (m : SMod) (t : Nat) : List Nat := if t ∈ m.structs then reachable m t else []

/-- `isSubType` (`LLVMTypeHierarchy.h:165-170`). -/
def sIsSubType (m : SMod) (t s : Nat) : Bool := (sSubTypes m t).contains s

/-- The serialized graph: name of each type with the names of its reachable types (`LLVMTypeHierarchy.cpp:456-471`).  The map is
keyed by name. -/
def sData (m : SMod) : List (List Char × List (List Char)) :=
  m.structs.map fun t => (m.name t, (reachable m t).map m.name)

/-- `NameToStructType` (`LLVMTypeHierarchy.cpp:83-104`): the first struct type of the module with that name. -/
def structByName (m : SMod) (n : List Char) : Option Nat := m.structs.find? fun t => decide (m.name t = n)

/-- `getSubTypes` of the hierarchy read back for one entry of the data (`LLVMTypeHierarchy.cpp:115-134`).  `none`:
`TypeVertexMap.at` throws, because the null check looks at the source instead of the destination (`:124`). -/
def sLoadEntry (m : SMod) (dests : List (List Char)) (src : Nat) : Option (List Nat) :=
  dests.foldlM (fun acc n => match structByName m n with
    | none => none
    | some d => some (acc ++ [d])) [src]

/-- The hierarchy read back: for each known type the reachable types (`LLVMTypeHierarchy.cpp:78-134`). -/
def sLoad (m : SMod) (data : List (List Char × List (List Char))) : Option (List (Nat × List Nat)) :=
  data.foldlM (fun acc e => match structByName m e.1 with
    | none => some acc
    | some src => (sLoadEntry m e.2 src).map fun r => acc ++ [(src, r)]) []

/-! ## Serialized debug-information hierarchy -/

/-- Names of types and functions: the identifier (empty if there is none), the name, the name of a function. -/
structure NameTab where
  ident : Nat → List Char
  name : Nat → List Char
  fn : Nat → List Char

/-- `DIBasedTypeHierarchyData` (`DIBasedTypeHierarchyData.h:20-35`). -/
structure DData where
  verts : List (List Char)
  index : List (Nat × Nat)
  hier : List (List Char)
  vtables : List (List (List Char))
deriving DecidableEq, Repr

/-- `LLVMVFTable::NullFunName` (`LLVMVFTable.h:41`). -/
def nullFunName : List Char := "__null__".toList

/-- `getTypeName` of a composite type (`DIBasedTypeHierarchy.h:70-76`). -/
def typeName (nt : NameTab) (a : Nat) : List Char := if nt.ident a = [] then nt.name a else nt.ident a

/-- `getTypeHierarchyData` (`DIBasedTypeHierarchy.cpp:350-382`). -/
def serialize (nt : NameTab) (th : TypeH) (vt : List (List (Option Nat))) : DData where
  verts := th.verts.map (typeName nt)
  index := th.index
  hier := th.hier.map nt.name
  vtables := vt.map fun t => t.map fun f => match f with
    | some f => nt.fn f
    | none => nullFunName

/-- The loop of `stringToDICompositeType` (`DIBasedTypeHierarchy.cpp:222-244`); the last two arguments are `ByName` and
`HasUniqueByName`.  `none`: fatal error. -/
def findComposite (d : DIF) (nt : NameTab) (s : List Char) : List Nat → Option Nat → Bool → Option Nat
  | [], byName, uniq => if uniq then byName else none
  | a :: as, byName, uniq =>
    match d.comp a with
    | none => findComposite d nt s as byName uniq
    | some _ =>
      if nt.ident a = s then some a
      else if nt.name a = s then findComposite d nt s as (some a) byName.isNone
      else findComposite d nt s as byName uniq

/-- `stringToDIType` (`DIBasedTypeHierarchy.cpp:246-255`): the first type with that name. -/
def findType (d : DIF) (nt : NameTab) (s : List Char) : Option Nat := d.types.find? fun a => decide (nt.name a = s)

/-- One virtual table read back (`DIBasedTypeHierarchy.cpp:282-294`): for the null name a null entry is added, and then another
one from the lookup that follows, as there is no `continue`. -/
def loadVTable (getFn : List Char → Option Nat) (t : List (List Char)) : List (Option Nat) :=
  t.flatMap fun n => if n = nullFunName then [none, getFn n] else [getFn n]

/-- The deserializing constructor (`DIBasedTypeHierarchy.cpp:257-295`); `getFn` is `IRDB->getFunction`. -/
def deserialize (d : DIF) (nt : NameTab) (getFn : List Char → Option Nat) (data : DData) :
    Option (TypeH × List (List (Option Nat))) :=
  (data.verts.mapM fun s => findComposite d nt s d.types none false).bind fun vs =>
    (data.hier.mapM (findType d nt)).map fun h =>
      ({ verts := vs, index := data.index, hier := h }, data.vtables.map (loadVTable getFn))

end Phasar.TH
