/-!
# Model of the recorded exploded supergraph

Models `include/phasar/DataFlow/PathSensitivity/ExplodedSuperGraph.h`: the graph that `PathAwareIDESolver` fills through
`saveEdges` while the solver runs.
-/
namespace Phasar.ESG

/-- `NodeData` and `NodeAdj` of one node (`ExplodedSuperGraph.h:62-70`); `NoPredId` is `none`. -/
structure Node (N D : Type) where
  value : D
  source : N
  pred : Option Nat
  nbrs : List Nat
deriving DecidableEq

/-- The members (`ExplodedSuperGraph.h:373-376`): the two parallel vectors as one list, and `FlowFactVertexMap`. -/
structure Graph (N D : Type) where
  nodes : List (Node N D)
  map : N × D → Option Nat

/-- `ESGEdgeKind` (`ESGEdgeKind.h:14`). -/
inductive Kind where
  | normal | call | callToRet | skipUnknownFn | ret | summary
deriving DecidableEq

/-- What the graph needs of its surroundings: `getParent` of a statement and the zero value. -/
structure Env (N D : Type) where
  blk : N → Nat
  zero : D

variable {N D : Type} [DecidableEq N] [DecidableEq D]

/-- The constructor (`ExplodedSuperGraph.h:158-160`): no nodes. -/
def Graph.empty : Graph N D := ⟨[], fun _ => none⟩

/-- Assignment to `FlowFactVertexMap` (`ExplodedSuperGraph.h:301, 319, 333, 344`). -/
def Graph.register (g : Graph N D) (k : N × D) (i : Nat) : Graph N D :=
  { g with map := fun k' => if k' = k then some i else g.map k' }

/-- `getNodeIdOrNull` (`ExplodedSuperGraph.h:270-278`) and `getNodeOrNull` (`ExplodedSuperGraph.h:170-177`). -/
def Graph.getNode (g : Graph N D) (n : N) (d : D) : Option Nat := g.map (n, d)

/-- `NodeRef::predecessor` of the node (`ExplodedSuperGraph.h:91-95`); the outer `none` stands for an index out of range. -/
def Graph.predOf (g : Graph N D) (i : Nat) : Option (Option Nat) := (g.nodes[i]?).map Node.pred

/-- `NodeRef::getNumNeighbors` (`ExplodedSuperGraph.h:102-105`): the return type is `bool`, so the size is converted to it. -/
def Graph.getNumNeighbors (g : Graph N D) (i : Nat) : Option Bool := (g.nodes[i]?).map fun nd => decide (nd.nbrs.length ≠ 0)

/-- The local function `makeNode` (`ExplodedSuperGraph.h:291-310`): the graph and the new node. -/
def makeNode (g : Graph N D) (predId : Option Nat) (curr : N) (currNode succNode : D) : Graph N D × Nat :=
  let r := g.nodes.length
  let g := { g with nodes := g.nodes ++ [⟨succNode, curr, predId, []⟩] }
  (if predId = none then g.register (curr, currNode) r else g, r)

/-- Is the edge an identity edge inside one block (`ExplodedSuperGraph.h:324-326`)?  `none`: index out of range. -/
def identityEdge (env : Env N D) (g : Graph N D) (predId : Option Nat) (succ : N) (succNode : D) : Option Bool :=
  match predId with
  | none => some false
  | some p => (g.nodes[p]?).map fun nd =>
    decide (nd.value = succNode) && decide (env.blk nd.source = env.blk succ) && decide (succNode ≠ env.zero)

/-- The end of `saveEdge` for a target that has a node `v` already (`ExplodedSuperGraph.h:348-370`). -/
def connect (g : Graph N D) (predId : Option Nat) (curr : N) (currNode succNode : D) (v : Nat) : Option (Graph N D) :=
  (g.nodes[v]?).bind fun nd =>
    match nd.pred with
    | none => some { g with nodes := g.nodes.set v { nd with pred := predId, source := curr } }
    | some q => (nd.nbrs.mapM g.predOf).map fun qs =>
      if some q ≠ predId ∧ predId ∉ qs then
        let (g', w) := makeNode g predId curr currNode succNode
        { g' with nodes := g'.nodes.set v { nd with nbrs := nd.nbrs ++ [w] } }
      else g

/-- `saveEdge` (`ExplodedSuperGraph.h:280-371`); `none` stands for an index out of range.  The assertion at line 315 is not part of
this function, see `assertion`. -/
def saveEdge (env : Env N D) (predId : Option Nat) (curr : N) (currNode : D) (succ : N) (maySkip : Bool) (g : Graph N D)
    (succNode : D) : Option (Graph N D) :=
  if maySkip ∧ succNode = currNode then
    match g.map (succ, succNode) with
    | some _ => some g
    | none =>
      let (g', r) := makeNode g predId curr currNode succNode
      some ({ g' with nodes := g'.nodes.set r ⟨succNode, curr, none, []⟩ }.register (succ, succNode) r)
  else
    (identityEdge env g predId succ succNode).bind fun ident =>
      match g.map (succ, succNode) with
      | none =>
        match ident, predId with
        | true, some p => some (g.register (succ, succNode) p)
        | _, _ =>
          let (g', r) := makeNode g predId curr currNode succNode
          some (g'.register (succ, succNode) r)
      | some v =>
        if ident ∧ predId = some v then some g
        else connect g predId curr currNode succNode v

/-- The assertion `assert(PredId)` (`ExplodedSuperGraph.h:315`) for one edge. -/
def assertion (predId : Option Nat) (currNode : D) (maySkip : Bool) (succNode : D) : Bool :=
  !(maySkip && decide (succNode = currNode)) || predId.isSome

/-- One call of `saveEdges` by the solver (`PathAwareIDESolver.h:54-58`). -/
structure Call (N D : Type) where
  curr : N
  currNode : D
  succ : N
  succNodes : List D
  kind : Kind
deriving DecidableEq

/-- May the identity edge be skipped (`ExplodedSuperGraph.h:200`)? -/
def Call.maySkip (env : Env N D) (c : Call N D) : Bool := decide (c.kind = .callToRet) && decide (c.currNode = env.zero)

/-- `saveEdges` (`ExplodedSuperGraph.h:193-204`).  `CurrNode` is moved from at line 196 and read at line 200 and later; the model is
about facts that a move leaves as they are, such as pointers and integers. -/
def saveEdges (env : Env N D) (g : Graph N D) (c : Call N D) : Option (Graph N D) :=
  c.succNodes.foldlM (saveEdge env (g.map (c.curr, c.currNode)) c.curr c.currNode c.succ (c.maySkip env)) g

/-- The graph after the calls of `saveEdges` (`PathAwareIDESolver.h:54-58`). -/
def record (env : Env N D) (g : Graph N D) (cs : List (Call N D)) : Option (Graph N D) := cs.foldlM (saveEdges env) g

/-! ## Specification -/

/-- Specification: an edge of the exploded supergraph that the solver reported. -/
structure Edge (N D : Type) where
  src : N × D
  dst : N × D
deriving DecidableEq

/-- Specification: the edges reported by one call. -/
def Call.edges (c : Call N D) : List (Edge N D) := c.succNodes.map fun d => ⟨(c.curr, c.currNode), (c.succ, d)⟩

/-- Specification: the alternatives at a node: itself and its neighbours. -/
def Graph.Alt (g : Graph N D) (v j : Nat) : Prop := j = v ∨ ∃ nd, g.nodes[v]? = some nd ∧ j ∈ nd.nbrs

/-- Specification: the indices stay inside. -/
structure Graph.Bounded (g : Graph N D) : Prop where
  map : ∀ k i, g.map k = some i → i < g.nodes.length
  pred : ∀ (i : Nat) nd p, g.nodes[i]? = some nd → nd.pred = some p → p < g.nodes.length
  nbrs : ∀ (i : Nat) nd j, g.nodes[i]? = some nd → j ∈ nd.nbrs → j < g.nodes.length

/-- Specification: the solver reports the edge in one of the calls. -/
def Reports (cs : List (Call N D)) (e : Edge N D) : Prop := ∃ c ∈ cs, e ∈ c.edges

/-- Specification: an edge that matters for paths.  The flow of zero along a call whose callee is analysed does not: zero also flows
through the callee (`ExplodedSuperGraph.h:198-199`). -/
def Flows (env : Env N D) (cs : List (Call N D)) (e : Edge N D) : Prop :=
  ∃ c ∈ cs, e ∈ c.edges ∧ ¬ (c.kind = .callToRet ∧ c.currNode = env.zero ∧ e.dst.2 = env.zero)

/-- Specification: the order of the calls.  The solver propagates from the seeds, so an edge is reported only for a pair that is a seed
or that an earlier edge leads to; no seed has an edge to itself (the first statement of a function is no branch to itself). -/
structure Causal (seeds : N × D → Prop) (cs : List (Call N D)) : Prop where
  order : ∀ pre c post, cs = pre ++ c :: post → seeds (c.curr, c.currNode) ∨ ∃ e, Reports pre e ∧ e.dst = (c.curr, c.currNode)
  noLoop : ∀ e, Reports cs e → seeds e.src → e.dst ≠ e.src

/-- Specification: a step back in the recorded graph: from a node to the predecessor of one of its alternatives. -/
def Graph.Back (g : Graph N D) (v p : Nat) : Prop := ∃ j nd, g.Alt v j ∧ g.nodes[j]? = some nd ∧ nd.pred = some p

/-- Specification: several steps back. -/
inductive Graph.Chain (g : Graph N D) : Nat → Nat → Prop
  | refl (v) : g.Chain v v
  | step {v p q} : g.Back v p → g.Chain p q → g.Chain v q

/-- Specification: a path along edges that satisfy `E`. -/
inductive Path (E : Edge N D → Prop) : N × D → N × D → Prop
  | refl (k) : Path E k k
  | step {k k' k''} : Path E k k' → E ⟨k', k''⟩ → Path E k k''

end Phasar.ESG
