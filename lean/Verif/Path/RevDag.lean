import Verif.Path.Dag
import Verif.Util.DFAMin
/-!
# Model of the depth limit and the minimisation of path graphs

Models `reverseDAG` (`include/phasar/DataFlow/PathSensitivity/PathSensitivityManagerBase.h:85-184`), the options
`DAGDepthThreshold` and `MinimizeDAG` (`PathSensitivityConfig.h:17-47`) and the whole of `pathsDagToAll`
(`PathSensitivityManagerMixin.h:73-149`).
-/
namespace Phasar.Dag
open Phasar

variable {V N T : Type}

/-! ## `reverseDAG` -/

/-- The variables `Ret`, `Cache` and `WLInsert` of `reverseDAG` (`PathSensitivityManagerBase.h:91`, `125-132`); `none` in the cache is
`Invalid`. -/
structure RSt (T : Type) where
  ret : Adj.Graph T Nat
  cache : List (Option Nat)
  ins : List (Nat × Nat)

/-- The vertex for the class of `v`, made and put into the work list if there is none (`PathSensitivityManagerBase.h:135-139`,
`148-156`).  `none` stands for an access outside the cache or the buffer of the work list, both of which have `EquivSize` elements. -/
def RSt.vertexFor (g : Adj.Graph T Nat) (eqv : Nat → Nat) (s : RSt T) (v : Nat) : Option (RSt T × Nat) :=
  (s.cache[eqv v]?).bind fun c =>
    match c with
    | some x => some (s, x)
    | none => (Adj.node g v).bind fun a =>
      if s.ins.length < s.cache.length then
        some (⟨(Adj.addNode s.ret a).1, s.cache.set (eqv v) (some (Adj.addNode s.ret a).2), s.ins ++ [(v, (Adj.addNode s.ret a).2)]⟩,
          (Adj.addNode s.ret a).2)
      else none

/-- One edge (`PathSensitivityManagerBase.h:147-159`). -/
def RSt.edge (g : Adj.Graph T Nat) (eqv : Nat → Nat) (rev : Nat) (s : RSt T) (c : Nat) : Option (RSt T) :=
  (s.vertexFor g eqv c).bind fun p => (Adj.addEdge p.1.ret p.2 rev).map fun r => { p.1 with ret := r }

/-- One element of the work list (`PathSensitivityManagerBase.h:145-163`). -/
def RSt.expand (g : Adj.Graph T Nat) (eqv : Nat → Nat) (s : RSt T) (p : Nat × Nat) : Option (RSt T) :=
  (Adj.outEdges g p.1).bind fun es => (es.foldlM (RSt.edge g eqv p.2) s).bind fun s =>
    if es.length = 0 then (Adj.addRoot s.ret p.2).map fun r => { s with ret := r } else some s

/-- The loop over the levels (`PathSensitivityManagerBase.h:144-169`): the state and the elements of `WLConsume` at the end.  The first
argument is `MaxDepth - Depth`. -/
def RSt.levels (g : Adj.Graph T Nat) (eqv : Nat → Nat) : Nat → List (Nat × Nat) → RSt T → Option (RSt T × List (Nat × Nat))
  | 0, wl, s => some (s, wl)
  | d + 1, wl, s =>
    if wl = [] then some (s, wl)
    else (wl.foldlM (RSt.expand g eqv) { s with ins := [] }).bind fun s => RSt.levels g eqv d s.ins s

/-- `reverseDAG` (`PathSensitivityManagerBase.h:85-184`).  Simplified: the allocation of the buffer is not modelled. -/
def reverseDAG (g : Adj.Graph T Nat) (eqv : Nat → Nat) (size maxDepth : Nat) : Option (Adj.Graph T Nat) :=
  (g.roots.foldlM (fun (s : RSt T) r => (s.vertexFor g eqv r).map (·.1)) ⟨Adj.empty, List.replicate size none, []⟩).bind fun s =>
  (RSt.levels g eqv maxDepth s.ins s).bind fun p => p.2.foldlM (fun r e => Adj.addRoot r e.2) p.1.ret

/-! ## Minimisation -/

/-- The graph with explicit weights (`AdjacencyList.h:236-255`: `AdjacencyList` has none). -/
def weighted (g : Adj.Graph T Nat) : DFAMin.G T Unit := ⟨g.nodes, g.adj.map (·.map (·, ())), g.roots⟩

/-- The graph without the weights (`AdjacencyList.h:236-255`). -/
def plain (g : DFAMin.G T Unit) : Adj.Graph T Nat := ⟨g.nodes, g.adj.map (·.map (·.1)), g.roots⟩

/-- `minimizeGraph` and `createEquivalentGraphFrom` one after the other (`PathSensitivityManagerMixin.h:136-138`).  The first argument
bounds the loop of the latter. -/
def minimize [DecidableEq T] (f : Nat) (g : Adj.Graph T Nat) : Option (Adj.Graph T Nat) :=
  (DFAMin.minimizeGraph (weighted g)).bind fun eq =>
    (DFAMin.createEquivalentGraphFrom (fun a b => decide (a.1 < b.1)) f (weighted g) eq).map plain

/-! ## `pathsDagToAll` -/

/-- The options that `pathsDagToAll` reads (`PathSensitivityConfig.h:19-21`); `none` is `SIZE_MAX`. -/
structure Config where
  depth : Option Nat
  minimize : Bool

/-- `PathSensitivityConfig.h:19-21`. -/
def Config.default : Config := ⟨none, true⟩

/-- `assertIsDAG` and the fatal error (`PathSensitivityManagerMixin.h:118-126`, `140-147`), with assertions enabled. -/
def checked (g : Adj.Graph T Nat) : Option (Adj.Graph T Nat) :=
  (assertIsDAG g (g.adj.length + 1)).bind fun ok => if ok then some g else none

/-- The part of `pathsDagToAll` behind the loop over the facts (`PathSensitivityManagerMixin.h:118-149`). -/
def finish [DecidableEq T] (cfg : Config) (f : Nat) (g : Adj.Graph T Nat) : Option (Adj.Graph T Nat) :=
  (checked g).bind fun g =>
  (match cfg.depth with
    | some d => reverseDAG g id g.adj.length d
    | none => reverseGraph g).bind fun g =>
  if cfg.minimize then (Dag.minimize f g).bind checked else some g

/-- `pathsDagToAll` (`PathSensitivityManagerMixin.h:73-149`) with all options. -/
def pathsDag [DecidableEq V] [DecidableEq N] (cfg : Config) (lk : Links V N) (f : Filter V) (w k f' : Nat) (inst : N) (vs : List V) :
    Option (Adj.Graph (List N) Nat) :=
  (query lk f w k inst vs).bind fun st => finish cfg f' st.dag

/-! ## Specification -/

/-- Specification: the labels of the paths from a root to a leaf. -/
def Seqs (g : Adj.Graph T Nat) (L : List T) : Prop :=
  ∃ r ∈ g.roots, ∃ us e, Walk g r us e ∧ Leaf g e ∧ us.map (g.nodes[·]?) = L.map some

/-- Specification: at most that many edges away from a root. -/
inductive Near (g : Adj.Graph T Nat) : Nat → Nat → Prop
  | root {n r} : r ∈ g.roots → Near g n r
  | step {n v t} : Near g n v → Succ g v t → Near g (n + 1) t

/-- Specification: fewer edges away from a root. -/
def Inside (g : Adj.Graph T Nat) (d v : Nat) : Prop := ∃ n, n < d ∧ Near g n v

end Phasar.Dag
