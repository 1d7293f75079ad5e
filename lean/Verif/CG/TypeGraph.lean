/-!
# Type graphs of the DTA resolver

`lib/PhasarLLVM/Pointer/TypeGraphs/CachedTypeGraph.cpp` (the one that `DTAResolver` uses) and `LazyTypeGraph.cpp`.  A link from `A` to `B`
says that a pointer to `A` may point to a `B`; `getTypes(A)` is meant to be the set of the types that a pointer to `A` may point to.

`boost::depth_first_visit`, `boost::depth_first_search` and `boost::adjacency_list<setS, vecS, bidirectionalS>` are modelled from their
documentation: vertices are numbered from 0, there are no parallel edges, and the neighbours of a vertex are visited in ascending order.
-/

namespace Phasar.TypeGraph

/-- `llvm::StructType`: its identity (`const llvm::StructType *`), `isLiteral()`, and the name, which is empty for an identified type without
a name (`%0`).  Only these are used by the type graphs (CachedTypeGraph.cpp:66-85, 136-138; LazyTypeGraph.cpp:47-58). -/
structure SType where
  id : Nat
  lit : Bool
  name : String
deriving DecidableEq, Repr

/-- `StructType::getName()` as used in CachedTypeGraph.cpp:70, 138 and LazyTypeGraph.cpp:48.  LLVM asserts that the type is not literal;
`none` is that assertion failing, if LLVM is built with assertions (`asserts`), and otherwise a literal type has the empty name. -/
def getName (asserts : Bool) (t : SType) : Option String :=
  if t.lit then (if asserts then none else some "") else some t.name

/-- CachedTypeGraph.cpp:67-74: the name under which `addType` looks up a type.  The address that is printed for a literal type is its
identity here. -/
def keyC (t : SType) : String :=
  if t.lit then "literal_" ++ toString t.id else t.name

/-- LazyTypeGraph.cpp:48, without assertions. -/
def keyL (t : SType) : String :=
  if t.lit then "" else t.name

/-- `VertexProperties`, CachedTypeGraph.h:39-43, LazyTypeGraph.h:39-42.  A lazy graph has no `Types`; the list is empty there. -/
structure Vtx where
  name : String
  base : SType
  types : List SType
deriving DecidableEq, Repr

/-- `TypeVertexMap`, `G` and `AlreadyVisited` of CachedTypeGraph.h:69-71, and the same fields of LazyTypeGraph.h. -/
structure Graph where
  vs : List Vtx
  es : List (Nat × Nat)
  map : List (String × Nat)
  busy : Bool
deriving DecidableEq, Repr

/-- CachedTypeGraph.h:92, LazyTypeGraph.h: the default constructor. -/
def Graph.empty : Graph := { vs := [], es := [], map := [], busy := false }

/-- `TypeVertexMap.find(Name)` of CachedTypeGraph.cpp:76, LazyTypeGraph.cpp:50. -/
def find (m : List (String × Nat)) (k : String) : Option Nat :=
  match m with
  | [] => none
  | (k', v) :: m => if k' = k then some v else find m k

/-- `std::set::insert`, CachedTypeGraph.cpp:42, 58, 81; LazyTypeGraph.cpp:40, 90. -/
def ins (l : List SType) (t : SType) : List SType :=
  if t ∈ l then l else l ++ [t]

/-- `addType` of CachedTypeGraph.cpp:65-85 and LazyTypeGraph.cpp:46-58, after the name has been computed; `ts` is what `Types` starts with. -/
def addVertex (g : Graph) (k : String) (t : SType) (ts : List SType) : Graph × Nat :=
  match find g.map k with
  | some v => (g, v)
  | none => ({ g with vs := g.vs ++ [{ name := k, base := t, types := ts }], map := (k, g.vs.length) :: g.map }, g.vs.length)

/-- CachedTypeGraph.cpp:65-85. -/
def addTypeC (g : Graph) (t : SType) : Graph × Nat :=
  addVertex g (keyC t) t [t]

/-- `boost::add_edge`, CachedTypeGraph.cpp:98, 119; LazyTypeGraph.cpp:71: whether the edge is new (the edges are a set, `boost::setS`). -/
def addEdge (g : Graph) (u v : Nat) : Graph × Bool :=
  if (u, v) ∈ g.es then (g, false) else ({ g with es := g.es ++ [(u, v)] }, true)

/-- Out-edges of a vertex in ascending order (`boost::setS`), used by the searches of CachedTypeGraph.cpp:133, LazyTypeGraph.cpp:95. -/
def succs (g : Graph) (v : Nat) : List Nat :=
  (List.range g.vs.length).filter fun u => decide ((v, u) ∈ g.es)

/-- Out-edges of a vertex of `boost::reverse_graph`, CachedTypeGraph.cpp:142-143. -/
def preds (g : Graph) (v : Nat) : List Nat :=
  (List.range g.vs.length).filter fun u => decide ((u, v) ∈ g.es)

/-- `boost::depth_first_visit` with the visitor's `examine_edge` (`ex`) and `finish_edge` (`fin`); the first argument bounds the depth, and the
vertices in the list are those that are not white.  CachedTypeGraph.cpp:133, 146-150; LazyTypeGraph.cpp:95-99. -/
def dfs {σ : Type} (succ : Nat → List Nat) (ex fin : Nat → Nat → σ → σ) : Nat → Nat → List Nat × σ → List Nat × σ
  | 0, _, s => s
  | f + 1, v, s =>
    (succ v).foldl (fun s u =>
      let s1 := (s.1, ex v u s.2)
      let s2 := if u ∈ s1.1 then s1 else dfs succ ex fin f u s1
      (s2.1, fin v u s2.2)) (v :: s.1, s.2)

/-- `boost::depth_first_search`, CachedTypeGraph.cpp:133: a visit from each vertex that is still white, in order. -/
def dfsAll {σ : Type} (succ : Nat → List Nat) (ex fin : Nat → Nat → σ → σ) (n : Nat) (s : σ) : List Nat × σ :=
  (List.range n).foldl (fun s v => if v ∈ s.1 then s else dfs succ ex fin n v s) ([], s)

/-- `G[V].Types`. CachedTypeGraph.cpp:41, 57, 156. -/
def types (vs : List Vtx) (v : Nat) : List SType :=
  match vs[v]? with
  | some x => x.types
  | none => []

/-- The loops of CachedTypeGraph.cpp:41-43 and 57-59: the types of `a` are inserted into those of `b`. -/
def addTypes (a b : Nat) (vs : List Vtx) : List Vtx :=
  vs.modify b fun x => { x with types := (types vs a).foldl ins x.types }

/-- CachedTypeGraph.cpp:136-151.  `TypeVertexMap[Name]` inserts vertex 0 if the name is not in the map. -/
def reverseTypePropagation (asserts : Bool) (g : Graph) (t : SType) : Option Graph :=
  match getName asserts t with
  | none => none
  | some k =>
    let gv : Graph × Nat :=
      match find g.map k with
      | some v => (g, v)
      | none => ({ g with map := (k, 0) :: g.map }, 0)
    some { gv.1 with vs := (dfs (preds g) (fun s t vs => addTypes s t vs) (fun _ _ vs => vs) g.vs.length gv.2 ([], g.vs)).2 }

/-- CachedTypeGraph.cpp:87-106. -/
def addLinkC (asserts : Bool) (g : Graph) (a b : SType) : Option (Graph × Bool) :=
  if g.busy then some (g, false)
  else
    let g := { g with busy := true }
    let ga := addTypeC g a
    let gb := addTypeC ga.1 b
    let ge := addEdge gb.1 ga.2 gb.2
    if ge.2 then
      match reverseTypePropagation asserts ge.1 b with
      | none => none
      | some g => some ({ g with busy := false }, true)
    else some ({ ge.1 with busy := false }, false)

/-- CachedTypeGraph.cpp:108-123. -/
def addLinkWithoutReversePropagation (g : Graph) (a b : SType) : Graph × Bool :=
  if g.busy then (g, false)
  else
    let g := { g with busy := true }
    let ga := addTypeC g a
    let gb := addTypeC ga.1 b
    let ge := addEdge gb.1 ga.2 gb.2
    ({ ge.1 with busy := false }, ge.2)

/-- CachedTypeGraph.cpp:131-134. -/
def aggregateTypes (g : Graph) : Graph :=
  { g with vs := (dfsAll (succs g) (fun _ _ vs => vs) (fun s t vs => addTypes t s vs) g.vs.length g.vs).2 }

/-- CachedTypeGraph.cpp:153-157. -/
def getTypesC (g : Graph) (t : SType) : Graph × List SType :=
  let gv := addTypeC g t
  (gv.1, types gv.1.vs gv.2)

/-- LazyTypeGraph.cpp:46-58. -/
def addTypeL (asserts : Bool) (g : Graph) (t : SType) : Option (Graph × Nat) :=
  match getName asserts t with
  | none => none
  | some k => some (addVertex g k t [])

/-- LazyTypeGraph.cpp:60-75. -/
def addLinkL (asserts : Bool) (g : Graph) (a b : SType) : Option (Graph × Bool) :=
  if g.busy then some (g, false)
  else
    let g := { g with busy := true }
    match addTypeL asserts g a with
    | none => none
    | some ga =>
      match addTypeL asserts ga.1 b with
      | none => none
      | some gb =>
        let ge := addEdge gb.1 ga.2 gb.2
        some ({ ge.1 with busy := false }, ge.2)

/-- `dfs_visitor::finish_edge`, LazyTypeGraph.cpp:37-41. -/
def finishL (g : Graph) (u : Nat) (r : List SType) : List SType :=
  match g.vs[u]? with
  | some x => ins r x.base
  | none => r

/-- LazyTypeGraph.cpp:84-102. -/
def getTypesL (asserts : Bool) (g : Graph) (t : SType) : Option (Graph × List SType) :=
  match addTypeL asserts g t with
  | none => none
  | some gv =>
    let g := gv.1
    some (g, (dfs (succs g) (fun _ _ r => r) (fun _ u r => finishL g u r) g.vs.length gv.2 ([], [t])).2)

/-- A call of a member function of a type graph, TypeGraph.h:42-46. -/
inductive Op where
  | link (a b : SType)
  | get (a : SType)
deriving DecidableEq

/-- A sequence of calls on a cached graph; `none` if an assertion fails.  CachedTypeGraph.cpp:87-106, 153-157. -/
def runC (asserts : Bool) : List Op → Graph → Option Graph
  | [], g => some g
  | .link a b :: l, g =>
    match addLinkC asserts g a b with
    | none => none
    | some r => runC asserts l r.1
  | .get a :: l, g => runC asserts l (getTypesC g a).1

/-- A sequence of calls on a lazy graph.  LazyTypeGraph.cpp:60-75, 84-102. -/
def runL (asserts : Bool) : List Op → Graph → Option Graph
  | [], g => some g
  | .link a b :: l, g =>
    match addLinkL asserts g a b with
    | none => none
    | some r => runL asserts l r.1
  | .get a :: l, g =>
    match getTypesL asserts g a with
    | none => none
    | some r => runL asserts l r.1

/-- A sequence of calls of `addLinkWithoutReversePropagation`, CachedTypeGraph.cpp:108-123. -/
def runW : List (SType × SType) → Graph → Graph
  | [], g => g
  | (a, b) :: l, g => runW l (addLinkWithoutReversePropagation g a b).1

/-! ## Specification -/

/-- The reflexive and transitive closure of a relation. -/
inductive Reach {α : Type} (R : α → α → Prop) (a : α) : α → Prop
  | refl : Reach R a a
  | step {b c : α} : Reach R a b → R b c → Reach R a c

/-- The links that have been added. -/
def links : List Op → List (SType × SType)
  | [] => []
  | .link a b :: l => (a, b) :: links l
  | .get _ :: l => links l

/-- The types that have been mentioned, in order. -/
def mentions : List Op → List SType
  | [] => []
  | .link a b :: l => a :: b :: mentions l
  | .get a :: l => a :: mentions l

/-- There is a link between two types. -/
def Linked (L : List (SType × SType)) (a b : SType) : Prop := (a, b) ∈ L

/-- There is a link between two types with these names. -/
def LinkedKeys (key : SType → String) (L : List (SType × SType)) (k k' : String) : Prop :=
  ∃ a b, (a, b) ∈ L ∧ key a = k ∧ key b = k'

/-- The type that a name stands for: the first type with this name that has been mentioned. -/
def Owner (key : SType → String) (m : List SType) (k : String) (t : SType) : Prop :=
  ∃ l r, m = l ++ t :: r ∧ key t = k ∧ ∀ x ∈ l, key x ≠ k

/-- Different types that have been mentioned have different names. -/
def Distinct (key : SType → String) (m : List SType) : Prop :=
  ∀ a ∈ m, ∀ b ∈ m, key a = key b → a = b

/-- No type can be reached from itself by one or more links. -/
def Acyclic (L : List (SType × SType)) : Prop :=
  ∀ a b, Linked L a b → ¬ Reach (Linked L) b a

end Phasar.TypeGraph
