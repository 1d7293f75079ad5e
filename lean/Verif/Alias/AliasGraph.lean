/-!
# Model of the alias graph

Models `lib/PhasarLLVM/Pointer/LLVMAliasGraph.cpp`: one undirected graph over the pointers of all functions analysed so far, with
an edge where LLVM's alias analysis does not answer `NoAlias` and where an alias was introduced by hand.

A dereferenced null pointer, a vertex out of range and a read through a dangling reference give `none`.  Left out: the functions
that print, the cache of alias sets.
-/
namespace Phasar.AliasGraph

/-- Values, as far as `retrieveFunction` tells them apart. -/
inductive Val where
  | inst (f k : Nat)
  | arg (f k : Nat)
  | block (f k : Nat)
  /-- a function as a value -/
  | func (f : Nat)
  /-- globals and other constants -/
  | other (k : Nat)
  deriving DecidableEq, Repr

/-- `AliasInfoBaseUtils::retrieveFunction`, `LLVMAliasInfo.cpp:19-33`; `none` is the null pointer. -/
def retrieveFunction : Val → Option Nat
  | .inst f _ | .arg f _ | .block f _ => some f
  | .func _ | .other _ => none

/-- What the graph needs to know of a program: the set `Pointers` of a function, `LLVMAliasGraph.cpp:161-206`; which values are
allocations on the stack or the heap, `:57-71`; whether LLVM's alias analysis for a function answers anything but `NoAlias`,
`:232-244`; the functions of the return instructions that use a value, `:331-332, :346-348`. -/
structure Prog where
  ptrs : Nat → List Val
  site : Val → Bool
  aa : Nat → Val → Val → Bool
  rets : Val → List Nat

/-- The members, `LLVMAliasGraph.h:261-265`: vertices are numbers, `verts` has their values; edges may have an instruction;
`vmap` is `ValueVertexMap`; the model iterates it in the order of insertion, the code's hash map in some order. -/
structure St where
  fns : List Nat := []
  verts : List Val := []
  edges : List (Nat × Nat × Option Nat) := []
  vmap : List (Val × Nat) := []
  deriving DecidableEq

/-- Looking up a value in `ValueVertexMap`. -/
def find (m : List (Val × Nat)) (v : Val) : Option Nat := (m.find? fun e => e.1 = v).map (·.2)

/-- `ValueVertexMap[P] = ...`, `LLVMAliasGraph.cpp:212`. -/
def assign (m : List (Val × Nat)) (v : Val) (i : Nat) : List (Val × Nat) :=
  if (find m v).isSome then m.map fun e => if e.1 = v then (v, i) else e else m ++ [(v, i)]

/-- The vertex of one pointer, `LLVMAliasGraph.cpp:211-213`. -/
def addVert (s : St) (p : Val) : St :=
  { s with verts := s.verts ++ [p], vmap := assign s.vmap p s.verts.length }

/-- The pairs of the two loops, `LLVMAliasGraph.cpp:215-246`. -/
def pairs : List (Val × Nat) → List ((Val × Nat) × Val × Nat)
  | [] => []
  | a :: l => l.map (fun b => (a, b)) ++ pairs l

/-- The body of the two loops, `LLVMAliasGraph.cpp:232-244`. -/
def edgeFor (P : Prog) (f : Nat) (e : (Val × Nat) × Val × Nat) : Option (Nat × Nat × Option Nat) :=
  if P.aa f e.1.1 e.2.1 then some (e.1.2, e.2.2, none) else none

/-- `computeAliasGraph(llvm::Function *)`, `LLVMAliasGraph.cpp:147-247`.  The loops run over the values of all functions
analysed so far. -/
def compute (P : Prog) (f : Nat) (s : St) : St :=
  if f ∈ s.fns then s
  else
    let s := (P.ptrs f).foldl addVert { s with fns := s.fns ++ [f] }
    { s with edges := s.edges ++ (pairs s.vmap).filterMap (edgeFor P f) }

/-- `computeAliasGraph(llvm::Function *)` for a pointer that may be null, `LLVMAliasGraph.cpp:147-159`: null is never among the
analysed functions and is dereferenced. -/
def computeFn (P : Prog) (f : Option Nat) (s : St) : Option St := f.map fun f => compute P f s

/-- `computeAliasGraph(const llvm::Value *)`, `LLVMAliasGraph.cpp:141-145`; `none` is the null pointer. -/
def computeVal (P : Prog) (v : Option Val) (s : St) : Option St := computeFn P (v.bind retrieveFunction) s

/-- `ValueVertexMap[V]`: the vertex, or a new entry for vertex 0. -/
def slot (v : Val) (s : St) : Nat × St :=
  match find s.vmap v with
  | some i => (i, s)
  | none => (0, { s with vmap := s.vmap ++ [(v, 0)] })

/-- `introduceAlias`, `LLVMAliasGraph.cpp:304-313`; `i` is the instruction given, if any.  In a graph without vertices, where
`add_edge` would make one without a value, the model gives `none`. -/
def introduce (P : Prog) (v w : Val) (i : Option Nat) (s : St) : Option St := do
  let s ← computeVal P (some v) s
  let s ← computeVal P (some w) s
  let (a, s) := slot v s
  let (b, s) := slot w s
  if s.verts = [] then none else some { s with edges := s.edges ++ [(a, b, i)] }

/-- The neighbours of a vertex, in the order of its edges. -/
def St.adj (s : St) (u : Nat) : List Nat :=
  s.edges.filterMap fun e => if e.1 = u then some e.2.1 else if e.2.1 = u then some e.1 else none

/-- `boost::edge`: the instruction of the first edge between two vertices. -/
def St.label (s : St) (u v : Nat) : Option Nat :=
  (s.edges.find? fun e => (e.1 = u && e.2.1 = v) || (e.1 = v && e.2.1 = u)).bind (·.2.2)

/-- `matchesStack`, `LLVMAliasGraph.cpp:84-98`, with no call stack: an edge with an instruction reads the call stack, which is empty
and which is gone (`CallStack` refers to a temporary object, `:44-48, :271`). -/
def St.matchesStack (s : St) : List Nat → Bool
  | u :: v :: l => (s.label u v).isNone && s.matchesStack (v :: l)
  | _ => true

/-- `finish_vertex` of the visitor, `LLVMAliasGraph.cpp:55-82`: `path` is its stack, which ends with `u`. -/
def St.finish (P : Prog) (s : St) (path : List Nat) (u : Nat) (res : List Val) : Option (List Val) := do
  let v ← s.verts[u]?
  if P.site v then if s.matchesStack path then some (res ++ [v]) else none
  else some res

/-- `boost::depth_first_visit`, with a bound for its depth: the vertices discovered and the allocation sites found. -/
def St.dfs (P : Prog) (s : St) : Nat → List Nat → Nat → List Nat × List Val → Option (List Nat × List Val)
  | 0, _, _, _ => none
  | k + 1, path, u, t => do
    let t ← (s.adj u).foldlM (fun t w => if w ∈ t.1 then some t else s.dfs P k (path ++ [u]) w t) (u :: t.1, t.2)
    let r ← s.finish P (path ++ [u]) u t.2
    some (t.1, r)

/-- `getReachableAllocationSites`, `LLVMAliasGraph.cpp:266-278`. -/
def sites (P : Prog) (v : Val) (s : St) : Option (List Val × St) := do
  let s ← computeVal P (some v) s
  let (u, s) := slot v s
  let t ← s.dfs P (s.verts.length + 1) [] u ([], [])
  some (t.2, s)

/-- `getAliasSet`, `LLVMAliasGraph.cpp:366-398`.  `VF` is a `const llvm::Function *`, so that `computeAliasGraph(VF)` is the
function that takes a `const llvm::Value *` and retrieves the function of that value again.  The depth-first search with `ReachabilityDFSVisitor`, `:101-108`, is
the other one with every value a site. -/
def aliasSet (P : Prog) (v : Val) (s : St) : Option (List Val × St) := do
  let s ← computeVal P ((retrieveFunction v).map .func) s
  let u ← find s.vmap v
  let t ← s.dfs { P with site := fun _ => true } (s.verts.length + 1) [] u ([], [])
  some (t.2, s)

/-- `alias`, `LLVMAliasGraph.cpp:255-264`: whether the answer differs from `NoAlias`. -/
def alias (P : Prog) (v w : Val) (s : St) : Option Bool := do
  let s ← computeVal P (some v) s
  let s ← computeVal P (some w) s
  let (l, _) ← aliasSet P v s
  some (decide (w ∈ l))

/-- `mergeWith`, `LLVMAliasGraph.cpp:287-302`: a copy of the other graph; entries for values already there are kept. -/
def mergeWith (s o : St) : St :=
  let n := s.verts.length
  { fns := s.fns ++ o.fns.filter fun f => f ∉ s.fns
    verts := s.verts ++ o.verts
    edges := s.edges ++ o.edges.map fun e => (e.1 + n, e.2.1 + n, e.2.2)
    vmap := s.vmap ++ (o.vmap.filter fun e => (find s.vmap e.1).isNone && decide (e.2 < o.verts.length)).map fun e => (e.1, e.2 + n) }

/-- `containsValue`, `LLVMAliasGraph.cpp:357-364`. -/
def containsValue (s : St) (v : Val) : Bool := s.verts.any fun w => w = v

/-- `getPointersEscapingThroughParams`, `LLVMAliasGraph.cpp:315-324`: the number of a parameter, and the parameter. -/
def escapingParams (s : St) : List (Nat × Val) :=
  s.verts.filterMap fun v => match v with
    | .arg _ k => some (k, v)
    | _ => none

/-- `getPointersEscapingThroughReturns`, `LLVMAliasGraph.cpp:326-338`. -/
def escapingRets (P : Prog) (s : St) : List Val := s.verts.flatMap fun v => (P.rets v).map fun _ => v

/-- `getPointersEscapingThroughReturnsForFunction`, `LLVMAliasGraph.cpp:340-355`. -/
def escapingRetsOf (P : Prog) (f : Nat) (s : St) : List Val :=
  s.verts.flatMap fun v => ((P.rets v).filter fun g => g = f).map fun _ => v

end Phasar.AliasGraph
