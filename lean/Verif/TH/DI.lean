/-!
# The type hierarchy from debug information

Model of `lib/PhasarLLVM/TypeHierarchy/DIBasedTypeHierarchy.cpp` and
`include/phasar/PhasarLLVM/TypeHierarchy/DIBasedTypeHierarchy.h`.

Debug-info nodes are numbers (their addresses).  Left out: numbers beyond 32 bits (`uint32_t`, `int32_t` indices), names of
types (see `TH/Serial.lean`), printing.
-/
namespace Phasar.TH

/-- The DWARF tag of a composite type (`DIBasedTypeHierarchy.cpp:188-192`); `other` stands for all tags not listed there. -/
inductive Tag where
  | class_ | struct_ | union_ | other
deriving DecidableEq, Repr

/-- The base type of an inheritance entry, with the typedefs around it (`DIBasedTypeHierarchy.cpp:113-116`). -/
inductive BaseTy where
  | ty (a : Nat)
  | typedef (t : BaseTy)
deriving DecidableEq, Repr

/-- An element of a composite type: an inheritance entry, or any other (`DIBasedTypeHierarchy.cpp:109-112`). -/
inductive Elem where
  | inheritance (b : BaseTy)
  | other
deriving DecidableEq, Repr

/-- `llvm::DICompositeType`: tag and elements. -/
structure Comp where
  tag : Tag
  elems : List Elem
deriving DecidableEq, Repr

/-- What `llvm::DebugInfoFinder` finds: the types in order, and which of them are composite
(`DIBasedTypeHierarchy.cpp:176-177, 194-195`). -/
structure DIF where
  types : List Nat
  comp : Nat → Option Comp

/-- The typedef loop (`DIBasedTypeHierarchy.cpp:113-116`). -/
def strip : BaseTy → Nat
  | .ty a => a
  | .typedef t => strip t

/-- One step of the loop that collects the types (`DIBasedTypeHierarchy.cpp:194-206`). -/
def addType (comp : Nat → Option Comp) (vs : List Nat) (a : Nat) : List Nat :=
  match comp a with
  | none => vs
  | some c => if c.tag = .other then vs else if a ∈ vs then vs else vs ++ [a]

/-- `VertexTypes` (`DIBasedTypeHierarchy.cpp:194-206`); `TypeToVertex` maps each type to its position. -/
def vertexTypes (d : DIF) : List Nat := d.types.foldl (addType d.comp) []

/-- `TypeToVertex.lookup` (`DIBasedTypeHierarchy.cpp:106, 118`): 0 if the type is not there. -/
def vertexOf (vs : List Nat) (a : Nat) : Nat := if a ∈ vs then vs.idxOf a else 0

/-- `TypeGraph` (`DIBasedTypeHierarchy.cpp:94-97`). -/
structure Graph where
  roots : List Bool
  derived : List (List Nat)
deriving DecidableEq, Repr

/-- One element of a composite type with index `d` (`DIBasedTypeHierarchy.cpp:109-124`).  `none`: the assertion fails. -/
def addElem (vs : List Nat) (d : Nat) (g : Graph) : Elem → Option Graph
  | .other => some g
  | .inheritance b =>
    let base := strip b
    let bi := vertexOf vs base
    if bi ≠ 0 ∨ vs[0]? = some base then
      some { derived := g.derived.modify bi (· ++ [d]), roots := g.roots.set d false }
    else none

/-- The elements of the composite type `a` (`DIBasedTypeHierarchy.cpp:106-124`). -/
def addComposite (comp : Nat → Option Comp) (vs : List Nat) (g : Graph) (a : Nat) : Option Graph :=
  match comp a with
  | none => none
  | some c => c.elems.foldlM (addElem vs (vertexOf vs a)) g

/-- `buildTypeGraph` (`DIBasedTypeHierarchy.cpp:99-128`). -/
def buildTypeGraph (comp : Nat → Option Comp) (vs : List Nat) : Option Graph :=
  vs.foldlM (addComposite comp vs)
    { roots := List.replicate vs.length true, derived := List.replicate vs.length [] }

/-- An entry of the worklist of `buildTypeHierarchy`: `visit i` is the number `i`, `close i` is `~i`
(`DIBasedTypeHierarchy.cpp:139, 147-152, 161-163`). -/
inductive Item where
  | visit (i : Nat)
  | close (i : Nat)
deriving DecidableEq, Repr

/-- `Seen`, `TransitiveDerivedIndex` and `Hierarchy` (`DIBasedTypeHierarchy.cpp:133-137`). -/
structure HS where
  seen : List Bool
  index : List (Nat × Nat)
  hier : List Nat
deriving DecidableEq, Repr

/-- The worklist loop (`DIBasedTypeHierarchy.cpp:144-164`); the top of the worklist is the head of the list, so that the derived
types come off in reverse order.  `Seen` is only set when it is already set, that is never (`:154-158`).  The number bounds
the steps, as the loop runs forever on cyclic graphs; `none`: out of steps or an index out of range. -/
def loop (vs : List Nat) (derived : List (List Nat)) : Nat → List Item → HS → Option HS
  | _, [], s => some s
  | 0, _ :: _, _ => none
  | n + 1, .close i :: w, s =>
    loop vs derived n w { s with index := s.index.modify i fun p => (p.1, s.hier.length) }
  | n + 1, .visit i :: w, s =>
    match vs[i]?, derived[i]? with
    | some v, some ds =>
      let s' := if s.seen[i]? = some true then { s with seen := s.seen.set i true }
        else { s with index := s.index.modify i fun p => (s.hier.length, p.2) }
      loop vs derived n (ds.reverse.map .visit ++ .close i :: w) { s' with hier := s'.hier ++ [v] }
    | _, _ => none

/-- The indices of the bits that are set (`TG.Roots.set_bits()`, `DIBasedTypeHierarchy.cpp:141`). -/
def setBits (bs : List Bool) : List Nat := (List.range bs.length).filter fun i => bs[i]? = some true

/-- `buildTypeHierarchy` (`DIBasedTypeHierarchy.cpp:130-166`). -/
def buildTypeHierarchy (fuel : Nat) (vs : List Nat) (g : Graph) : Option HS :=
  (setBits g.roots).foldlM (fun s r => loop vs g.derived fuel [.visit r] s)
    { seen := List.replicate vs.length false, index := List.replicate vs.length (0, 0), hier := [] }

/-- `DIBasedTypeHierarchy` (`DIBasedTypeHierarchy.h:110-127`), without names and virtual tables. -/
structure TypeH where
  verts : List Nat
  index : List (Nat × Nat)
  hier : List Nat
deriving DecidableEq, Repr

/-- The constructor (`DIBasedTypeHierarchy.cpp:173-220`). -/
def construct (fuel : Nat) (d : DIF) : Option TypeH :=
  let vs := vertexTypes d
  (buildTypeGraph d.comp vs).bind fun g =>
    (buildTypeHierarchy fuel vs g).map fun s => { verts := vs, index := s.index, hier := s.hier }

/-- `subTypesOf(TypeIdx)` (`DIBasedTypeHierarchy.cpp:297-302`).  `none`: out of range. -/
def subTypesOfIdx (th : TypeH) (i : Nat) : Option (List Nat) :=
  match th.index[i]? with
  | none => none
  | some (s, e) => if s ≤ e ∧ e ≤ th.hier.length then some ((th.hier.drop s).take (e - s)) else none

/-- `subTypesOf(Ty)` and `getSubTypes` (`DIBasedTypeHierarchy.cpp:304-313`, `DIBasedTypeHierarchy.h:50-53`). -/
def subTypesOf (th : TypeH) (a : Nat) : Option (List Nat) :=
  if a ∈ th.verts then subTypesOfIdx th (th.verts.idxOf a) else some []

/-- `isSubType` (`DIBasedTypeHierarchy.h:45-48`). -/
def isSubType (th : TypeH) (t s : Nat) : Option Bool := (subTypesOf th t).map fun l => l.contains s

/-- `hasType` (`DIBasedTypeHierarchy.h:41-43`). -/
def hasType (th : TypeH) (a : Nat) : Bool := decide (a ∈ th.verts)

/-- A virtual function in the debug information: scope, virtual index, and the function of the module if declared there
(`DIBasedTypeHierarchy.cpp:50-79`).  Functions that are not virtual are left out (`:52-54`). -/
structure Sub where
  parent : Nat
  vidx : Nat
  fn : Option Nat
deriving DecidableEq, Repr

/-- Writes one entry (`DIBasedTypeHierarchy.cpp:81-89`). -/
def putEntry (t : List (Option Nat)) (i f : Nat) : List (Option Nat) :=
  if t.length = i then t ++ [some f]
  else
    let t' := if t.length < i then t ++ List.replicate (i + 1 - t.length) none else t
    t'.set i (some f)

/-- One step of `buildVTables` (`DIBasedTypeHierarchy.cpp:50-90`). -/
def addSub (vs : List Nat) (vt : List (List (Option Nat))) (p : Sub) : List (List (Option Nat)) :=
  if p.parent ∈ vs then
    match p.fn with
    | none => vt
    | some f => vt.modify (vs.idxOf p.parent) fun t => putEntry t p.vidx f
  else vt

/-- `buildVTables` (`DIBasedTypeHierarchy.cpp:43-92`). -/
def buildVTables (vs : List Nat) (ps : List Sub) : List (List (Option Nat)) :=
  ps.foldl (addSub vs) (List.replicate vs.length [])

end Phasar.TH
