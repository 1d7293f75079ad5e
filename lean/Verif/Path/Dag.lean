import Verif.Path.ESG
import Verif.Util.AdjList
/-!
# Model of the extraction of paths from the exploded supergraph

Models `include/phasar/DataFlow/PathSensitivity/PathSensitivityManagerMixin.h` (`pathsToImpl`, `pathsToImplLA`,
`pathsToImplLAInvoke`, `pathsDagToAll`), `assertIsDAG` and `reverseDAG` of `PathSensitivityManagerBase.h`, `PathTracingFilter.h` and
`reverseGraph` of `include/phasar/Utils/GraphTraits.h`.  The result graph is the model of `AdjacencyList` of C30.
-/
namespace Phasar.Dag

/-- What the extraction reads of the exploded supergraph through a node reference: `source()`, `predecessor()`, `neighbors()`
(`ExplodedSuperGraph.h:76-137`).  `V` are the valid references. -/
structure Links (V N : Type) where
  src : V → N
  pred : V → Option V
  nbrs : V → List V

/-- A `PathTracingFilter` (`PathTracingFilter.h:16-22`); the second argument is `none` for the null reference. -/
structure Filter (V : Type) where
  reachedEnd : V → Option V → Bool
  erroneous : V → Option V → Bool

/-- `DefaultPathTracingFilter` (`PathTracingFilter.h:24-34`). -/
def Filter.default {V : Type} : Filter V := ⟨fun _ _ => false, fun _ _ => false⟩

variable {V N : Type} [DecidableEq V]

/-- How the loop at `PathSensitivityManagerMixin.h:219-242` ends: at the null reference, or at `vtx` coming from `prev`, with `IsEnd` and
`IsError`. -/
inductive Stop (V : Type) where
  | ended (isErr : Bool)
  | at (prev vtx : V) (isEnd isErr : Bool)
deriving DecidableEq

/-- The loop at `PathSensitivityManagerMixin.h:219-242`: the statements appended to the label and how it ends.  The first argument
bounds the number of iterations; `none` if they do not suffice. -/
def walk (lk : Links V N) (f : Filter V) : Nat → V → Option (List N × Stop V)
  | 0, _ => none
  | k + 1, v =>
    let isEnd := f.reachedEnd v (lk.pred v)
    let isErr := !isEnd && f.erroneous v (lk.pred v)
    match lk.pred v with
    | none => some ([lk.src v], .ended isErr)
    | some x =>
      if isEnd || isErr || !(lk.nbrs x).isEmpty then some ([lk.src v], .at v x isEnd isErr)
      else (walk lk f k x).map fun r => (lk.src v :: r.1, r.2)

/-- `PathsToContext` (`PathSensitivityManagerMixin.h:51-54`) and the graph; `Invalid` is `none`. -/
structure St (V N : Type) where
  cache : V → Option (Option Nat)
  path : List Nat
  dag : Adj.Graph (List N) Nat

/-- The state at the start of `pathsDagToAll` (`PathSensitivityManagerMixin.h:81-82`). -/
def St.init : St V N := ⟨fun _ => none, [], Adj.empty⟩

/-- Writing the cache (`PathSensitivityManagerMixin.h:287-297`, `302`). -/
def St.put (st : St V N) (v : V) (r : Option Nat) : St V N := { st with cache := fun u => if u = v then some r else st.cache u }

/-- The order of `unsigned`, as used by `dedupOutEdges` (`AdjacencyList.h:135`). -/
def natLt (a b : Nat) : Bool := decide (a < b)

/-- `traverseNext` (`PathSensitivityManagerMixin.h:251-256`); `rec` is `pathsToImplLA`. -/
def traverse (rec : V → St V N → Option (St V N × Option Nat)) (ret : Nat) (st : St V N) (q : V) : Option (St V N) :=
  (rec q st).bind fun r =>
    match r.2 with
    | some u => if u ∈ r.1.path then some r.1 else (Adj.addEdge r.1.dag ret u).map fun d => { r.1 with dag := d }
    | none => some r.1

/-- One round of the loop over the neighbours (`PathSensitivityManagerMixin.h:262-272`): the state and `IsEnd`. -/
def traverseNbr (f : Filter V) (rec : V → St V N → Option (St V N × Option Nat)) (ret : Nat) (prev : V) (s : St V N × Bool) (q : V) :
    Option (St V N × Bool) :=
  if f.erroneous prev (some q) then some s
  else if f.reachedEnd prev (some q) then some (s.1, true)
  else (traverse rec ret s.1 q).map fun st => (st, s.2)

/-- The end of `pathsToImplLAInvoke` after the loop (`PathSensitivityManagerMixin.h:244-277`). -/
def visit (lk : Links V N) (f : Filter V) (rec : V → St V N → Option (St V N × Option Nat)) (ret : Nat) (st : St V N) (stop : Stop V) :
    Option (St V N × Bool) :=
  match stop with
  | .ended isErr => some (st, !isErr)
  | .at prev x isEnd isErr =>
    if ret ∈ st.path then some (st, false)
    else
      let st := { st with path := st.path ++ [ret] }
      (if !isEnd && !isErr then traverse rec ret st x else some st).bind fun st =>
      ((lk.nbrs x).foldlM (traverseNbr f rec ret prev) (st, isEnd)).bind fun s =>
      (Adj.dedupOutEdges natLt s.1.dag ret).bind fun d =>
      (Adj.outDegree d ret).map fun n => ({ s.1 with path := s.1.path.dropLast, dag := d }, s.2 || decide (n ≠ 0))

/-- Removing the vertex of an invalid path (`PathSensitivityManagerMixin.h:304-307`). -/
def discard (st : St V N) (ret : Nat) : St V N :=
  if ret ∈ st.path ∨ (Adj.pop st.dag ret).2 = false then { st with dag := { st.dag with nodes := st.dag.nodes.set ret [] } }
  else { st with dag := (Adj.pop st.dag ret).1 }

/-- `pathsToImplLA` with `pathsToImplLAInvoke` (`PathSensitivityManagerMixin.h:210-312`): the state and the vertex, `none` for `Invalid`.
The numbers bound the loop and the recursion; the result is `none` if they do not suffice or if an operation on the graph is outside its
precondition.  Simplified: the label is known when the vertex is added (nothing reads the vertex before the loop ends). -/
def la (lk : Links V N) (f : Filter V) (w : Nat) : Nat → V → St V N → Option (St V N × Option Nat)
  | 0, _, _ => none
  | k + 1, v, st =>
    match st.cache v with
    | some r => some (st, r)
    | none =>
      (walk lk f w v).bind fun l =>
        let a := Adj.addNode st.dag l.1
        (visit lk f (la lk f w k) a.2 { st.put v (some a.2) with dag := a.1 } l.2).map fun s =>
          if s.2 then (s.1, some a.2) else (discard (s.1.put v none) a.2, none)

/-- Adding the edge to a vertex that is not `Invalid` (`PathSensitivityManagerMixin.h:325-327`, `330-332`). -/
def link (rec : V → St V N → Option (St V N × Option Nat)) (ret : Nat) (st : St V N) (q : V) : Option (St V N) :=
  (rec q st).bind fun r =>
    match r.2 with
    | some u => (Adj.addEdge r.1.dag ret u).map fun d => { r.1 with dag := d }
    | none => some r.1

/-- `pathsToImpl` (`PathSensitivityManagerMixin.h:315-337`). -/
def pathsToImpl (lk : Links V N) (f : Filter V) (w k : Nat) (inst : N) (st : St V N) (v : V) : Option (St V N × Nat) :=
  let a := Adj.addNode st.dag [inst]
  ((lk.nbrs v ++ [v]).foldlM (link (la lk f w k) a.2) { st with dag := a.1 }).bind fun st =>
  (Adj.dedupOutEdges natLt st.dag a.2).map fun d => ({ st with dag := d }, a.2)

/-- One round of the loop over the facts (`PathSensitivityManagerMixin.h:84-116`). -/
def queryOne (lk : Links V N) (f : Filter V) (w k : Nat) (inst : N) (st : St V N) (v : V) : Option (St V N) :=
  (pathsToImpl lk f w k inst st v).bind fun r => (Adj.addRoot r.1.dag r.2).map fun d => { r.1 with dag := d }

/-- The loop of `pathsDagToAll` (`PathSensitivityManagerMixin.h:81-116`): the graph before it is reversed.  The nodes of the facts are
given; a fact without a node aborts the program. -/
def query (lk : Links V N) (f : Filter V) (w k : Nat) (inst : N) (vs : List V) : Option (St V N) :=
  vs.foldlM (queryOne lk f w k inst) .init

/-- One vertex of `reverseGraph` (`GraphTraits.h:160-168`). -/
def reverseAt {T : Type} (g : Adj.Graph T Nat) (r : Adj.Graph T Nat) (i : Nat) : Option (Adj.Graph T Nat) :=
  (Adj.outEdges g i).bind fun es =>
    (es.foldlM (fun r c => Adj.addEdge r c i) r).bind fun r => if es.length = 0 then Adj.addRoot r i else some r

/-- `reverseGraph` (`GraphTraits.h:145-170`). -/
def reverseGraph {T : Type} (g : Adj.Graph T Nat) : Option (Adj.Graph T Nat) :=
  (List.range g.adj.length).foldlM (reverseAt g) (g.nodes.foldl (fun r t => (Adj.addNode r t).1) Adj.empty)

/-- `doAssertIsDAG` (`PathSensitivityManagerBase.h:52-76`): the vertices visited and the answer.  The first argument bounds the
recursion. -/
def checkAt {T : Type} (g : Adj.Graph T Nat) : Nat → List Nat → List Nat → Nat → Option (List Nat × Bool)
  | 0, _, _, _ => none
  | k + 1, path, vis, v =>
    if v ∈ path then some (vis, false)
    else if v ∈ vis then some (vis, true)
    else (Adj.outEdges g v).bind fun es =>
      es.foldlM (fun s u => if s.2 then checkAt g k (v :: path) s.1 u else some s) (v :: vis, true)

/-- `assertIsDAG` (`PathSensitivityManagerBase.h:45-85`). -/
def assertIsDAG {T : Type} (g : Adj.Graph T Nat) (k : Nat) : Option Bool :=
  (g.roots.foldlM (fun (s : List Nat × Bool) u => if s.2 then checkAt g k [] s.1 u else some s) ([], true)).map fun s => s.2

/-- `pathsDagToAll` (`PathSensitivityManagerMixin.h:73-149`) without a depth limit and without minimisation (C29): `none` also stands for
the fatal error if the graph has a cycle. -/
def pathsDagToAll (lk : Links V N) (f : Filter V) (w k : Nat) (inst : N) (vs : List V) : Option (Adj.Graph (List N) Nat) :=
  (query lk f w k inst vs).bind fun st =>
  (assertIsDAG st.dag (st.dag.adj.length + 1)).bind fun ok => if ok then reverseGraph st.dag else none

/-- The links of a recorded graph (`ExplodedSuperGraph.h:76-137`); its node references are the indices in range. -/
def linksOf {D : Type} (g : ESG.Graph N D) (h : g.Bounded) : Links (Fin g.nodes.length) N where
  src i := (g.nodes[i.1]).source
  pred i := match hp : (g.nodes[i.1]).pred with
    | none => none
    | some p => some ⟨p, h.pred i.1 _ p (List.getElem?_eq_getElem i.2) hp⟩
  nbrs i := (g.nodes[i.1]).nbrs.attach.map fun j => ⟨j.1, h.nbrs i.1 _ j.1 (List.getElem?_eq_getElem i.2) j.2⟩

/-! ## Specification -/

/-- Specification: the nodes one step back from `v`: the predecessor and its neighbours. -/
def Links.Next (lk : Links V N) (v q : V) : Prop := ∃ p, lk.pred v = some p ∧ (q = p ∨ q ∈ lk.nbrs p)

/-- Specification: a path may go from `v` back to `q`. -/
def Filter.Passes (f : Filter V) (v q : V) : Prop := f.reachedEnd v (some q) = false ∧ f.erroneous v (some q) = false

/-- Specification: a path may end when going from `v` back.  For the predecessor the end counts before the error, for its neighbours the
error counts before the end. -/
def Filter.Ends (f : Filter V) (lk : Links V N) (v : V) : Prop :=
  match lk.pred v with
  | none => f.reachedEnd v none = true ∨ f.erroneous v none = false
  | some p => f.reachedEnd v (some p) = true ∨ ∃ q ∈ lk.nbrs p, f.reachedEnd v (some q) = true ∧ f.erroneous v (some q) = false

/-- Specification: the statements on the ways back from a node. -/
inductive Trail (lk : Links V N) (f : Filter V) : V → List N → Prop
  | last {v} : f.Ends lk v → Trail lk f v [lk.src v]
  | step {v q ls} : lk.Next v q → f.Passes v q → Trail lk f q ls → Trail lk f v (lk.src v :: ls)

/-- Specification: `t` is a successor of `v`. -/
def Succ {T : Type} (g : Adj.Graph T Nat) (v t : Nat) : Prop := ∃ es, g.adj[v]? = some es ∧ t ∈ es

/-- Specification: no successors. -/
def Leaf {T : Type} (g : Adj.Graph T Nat) (v : Nat) : Prop := g.adj[v]? = some []

/-- Specification: a path through the graph. -/
inductive Walk {T : Type} (g : Adj.Graph T Nat) : Nat → List Nat → Nat → Prop
  | one {v} : v < g.adj.length → Walk g v [v] v
  | cons {v t vs u} : Succ g v t → Walk g t vs u → Walk g v (v :: vs) u

/-- Specification: the statements on a path. -/
def labels (g : Adj.Graph (List N) Nat) (vs : List Nat) : List N := vs.flatMap fun v => (g.nodes[v]?).getD []

/-- Specification: the statements on a path of the reversed graph in the order of execution. -/
def labelsFwd (g : Adj.Graph (List N) Nat) (vs : List Nat) : List N := vs.flatMap fun v => ((g.nodes[v]?).getD []).reverse

/-- Specification: a graph whose edges and roots stay inside. -/
structure InRange {T : Type} (g : Adj.Graph T Nat) : Prop where
  wf : g.adj.length = g.nodes.length
  succ : ∀ t u, Succ g t u → u < g.adj.length
  roots : ∀ r ∈ g.roots, r < g.adj.length

/-- Specification: along any number of edges. -/
inductive Reach {T : Type} (g : Adj.Graph T Nat) : Nat → Nat → Prop
  | refl (v) : Reach g v v
  | step {v t u} : Succ g v t → Reach g t u → Reach g v u

/-- Specification: along at least one edge. -/
def ReachP {T : Type} (g : Adj.Graph T Nat) (v u : Nat) : Prop := ∃ t, Succ g v t ∧ Reach g t u

end Phasar.Dag
