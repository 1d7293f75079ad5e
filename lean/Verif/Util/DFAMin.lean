import Verif.Util.AdjList
/-!
# Model of `DFAMinimizer`

Models `include/phasar/Utils/DFAMinimizer.h`: `minimizeGraph` and `createEquivalentGraphFrom`, on the graphs of
`AdjList.lean` with edges that carry a target and a weight (`AdjacencyList` itself has no weights:
`AdjacencyList.h:236-255`, the case `W = Unit`).  `llvm::IntEqClasses` is not part of the repository; it is
modelled by the list of leaders, the least element of each class.  Unchecked accesses outside an array are `none`.
-/
namespace Phasar.DFAMin
open Phasar.Adj

variable {T W : Type}

/-- A graph with weighted edges: the graphs of `GraphTraits.h:23-60` that `AdjacencyList.h` provides. -/
abbrev G (T W : Type) := Graph T (Nat × W)

/-! ## `minimizeGraph` -/

/-- `IntEqClasses::join(a, b)` used at `DFAMinimizer.h:132`: the class with the greater leader joins the other. -/
def join (eq : List Nat) (a b : Nat) : Option (List Nat) :=
  match eq[a]?, eq[b]? with
  | some x, some y => some (eq.map (fun z => if z = max x y then min x y else z))
  | _, _ => none

/-- `isEquivalent`, `DFAMinimizer.h:113-124`. -/
def edgeEquiv [DecidableEq W] (eq : List Nat) (a b : Nat × W) : Option Bool :=
  if a.2 ≠ b.2 then some false
  else if a.1 = b.1 then some true
  else match eq[a.1]?, eq[b.1]? with
    | some x, some y => some (decide (x = y))
    | _, _ => none

/-- The loop over the zipped out-edges, `DFAMinimizer.h:149-155`. -/
def zipEquiv [DecidableEq W] (eq : List Nat) : List (Nat × W) → List (Nat × W) → Option Bool
  | a :: as, b :: bs => (edgeEquiv eq a b).bind (fun r => if r then zipEquiv eq as bs else some false)
  | _, _ => some true

/-- The test for one pair, `DFAMinimizer.h:147-181`: out-edges pairwise equivalent, or crosswise if there are two. -/
def pairEquiv [DecidableEq W] (g : G T W) (eq : List Nat) (l r : Nat) : Option Bool :=
  match outEdges g l, outEdges g r with
  | some ls, some rs => (zipEquiv eq ls rs).bind (fun e =>
      if e then some true else
      match ls, rs with
      | [l1, l2], r1 :: r2 :: _ => (edgeEquiv eq l1 r2).bind (fun x => if x then edgeEquiv eq l2 r1 else some false)
      | [_, _], _ => none
      | _, _ => some false)
  | _, _ => none

/-- One pass of the `for` loop over the work list, `DFAMinimizer.h:145-182`, from index `i` on with `k` rounds at
most; after removing a pair the index stays (`I - 1`, then `++I`). -/
def pass [DecidableEq W] (g : G T W) : Nat → List (Nat × Nat) → List Nat → Nat → Bool →
    Option (List (Nat × Nat) × List Nat × Bool)
  | k, wl, eq, i, ch =>
    match wl[i]? with
    | none => some (wl, eq, ch)
    | some p =>
      match k with
      | 0 => none
      | k + 1 => (pairEquiv g eq p.1 p.2).bind (fun b =>
          if b then (if p.1 = p.2 then some eq else join eq p.1 p.2).bind (fun eq' =>
            (swapPop wl i).bind (fun wl' => pass g k wl' eq' i true))
          else pass g k wl eq (i + 1) ch)

/-- The `while (Changed)` loop, `DFAMinimizer.h:143-183`, with `n` passes at most. -/
def passes [DecidableEq W] (g : G T W) : Nat → List (Nat × Nat) → List Nat → Option (List Nat)
  | 0, _, _ => none
  | n + 1, wl, eq => (pass g wl.length wl eq 0 false).bind (fun r =>
      if r.2.2 then passes g n r.1 r.2.1 else some r.2.1)

/-- Whether the pair goes into the work list, `DFAMinimizer.h:105-106`. -/
def candidate [DecidableEq T] (g : G T W) (a b : Nat) : Bool :=
  decide (node g a = node g b) && decide (outDegree g a = outDegree g b)

/-- The initial work list, `DFAMinimizer.h:102-109`: all pairs `a < b`, in this order. -/
def pairs [DecidableEq T] (g : G T W) : List (Nat × Nat) :=
  (List.range (size g)).flatMap (fun a =>
    (((List.range (size g)).filter (fun b => decide (a < b))).filter (fun b => candidate g a b)).map (fun b => (a, b)))

/-- The number of leaders below `x`. -/
def rank (eq : List Nat) (x : Nat) : Nat := ((List.range x).filter (fun i => eq[i]? = some i)).length

/-- `IntEqClasses::compress()` used at `DFAMinimizer.h:185`: the classes are numbered in the order of their
leaders. -/
def compress (eq : List Nat) : List Nat := eq.map (rank eq)

/-- `getNumClasses()`, used at `DFAMinimizer.h:35`. -/
def numClasses (eq : List Nat) : Nat := rank eq eq.length

/-- `minimizeGraph`, `DFAMinimizer.h:86-193`: the class of every vertex and the number of classes. -/
def minimizeGraph [DecidableEq T] [DecidableEq W] (g : G T W) : Option (List Nat × Nat) :=
  (passes g ((pairs g).length + 1) (pairs g) (List.range (size g))).map (fun eq => (compress eq, numClasses eq))

/-! ## `createEquivalentGraphFrom` -/

/-- The locals of `createEquivalentGraphFrom`, `DFAMinimizer.h:32-36`; the top of the work list is its head. -/
structure CS (T W : Type) where
  ret : G T W
  e2v : List (Option Nat)
  handled : List Bool
  wl : List Nat

/-- The vertex for the class of `v`, made if there is none, `DFAMinimizer.h:45-48` and `67-70`. -/
def vertexFor (g : G T W) (cls : List Nat) (s : CS T W) (v : Nat) : Option (CS T W × Nat × Bool) :=
  match cls[v]? with
  | none => none
  | some c => match s.e2v[c]? with
    | none => none
    | some (some x) => some (s, x, false)
    | some none => (node g v).map (fun a =>
        ({ s with ret := (addNode s.ret a).1, e2v := s.e2v.set c (some (addNode s.ret a).2) }, (addNode s.ret a).2, true))

/-- The loop over the roots, `DFAMinimizer.h:42-52`. -/
def addRoots (g : G T W) (cls : List Nat) : List Nat → CS T W → Option (CS T W)
  | [], s => some s
  | r :: rs, s => (vertexFor g cls s r).bind (fun p =>
      (if p.2.2 then addRoot p.1.ret p.2.1 else some p.1.ret).bind (fun ret =>
        addRoots g cls rs { p.1 with ret := ret, wl := r :: p.1.wl }))

/-- The loop over the out-edges of a vertex, `DFAMinimizer.h:64-76`. -/
def edges (g : G T W) (cls : List Nat) (nw : Nat) : List (Nat × W) → CS T W → Option (CS T W)
  | [], s => some s
  | e :: es, s => (vertexFor g cls s e.1).bind (fun p =>
      match p.1.handled[e.1]? with
      | none => none
      | some h => (addEdge p.1.ret nw (p.2.1, e.2)).bind (fun ret =>
          edges g cls nw es { p.1 with ret := ret, wl := if h then p.1.wl else e.1 :: p.1.wl }))

/-- One round of the work-list loop, `DFAMinimizer.h:55-76`, for the vertex just popped. -/
def round (g : G T W) (cls : List Nat) (v : Nat) (s : CS T W) : Option (CS T W) :=
  match cls[v]? with
  | none => none
  | some c => match s.e2v[c]?, outEdges g v with
    | some (some nw), some es =>
      if v < s.handled.length then edges g cls nw es { s with handled := s.handled.set v true } else none
    | _, _ => none

/-- The work-list loop, `DFAMinimizer.h:54-77`, with `f` rounds at most. -/
def loop (g : G T W) (cls : List Nat) : Nat → CS T W → Option (CS T W)
  | f, s => match s.wl with
    | [] => some s
    | v :: rest => match f with
      | 0 => none
      | f + 1 => (round g cls v { s with wl := rest }).bind (loop g cls f)

/-- The final loop, `DFAMinimizer.h:79-81`. -/
def dedupAll [DecidableEq W] (lt : Nat × W → Nat × W → Bool) : List Nat → G T W → Option (G T W)
  | [], g => some g
  | v :: vs, g => (dedupOutEdges lt g v).bind (dedupAll lt vs)

/-- `createEquivalentGraphFrom`, `DFAMinimizer.h:24-84`, with `f` rounds of the work-list loop at most. -/
def createEquivalentGraphFrom [DecidableEq W] (lt : Nat × W → Nat × W → Bool) (f : Nat) (g : G T W)
    (eq : List Nat × Nat) : Option (G T W) :=
  (addRoots g eq.1 g.roots ⟨Adj.empty, List.replicate eq.2 none, List.replicate (size g) false, []⟩).bind (fun s =>
    (loop g eq.1 f s).bind (fun s' => dedupAll lt (List.range (size s'.ret)) s'.ret))

/-! ## Specification: the labelled paths -/

/-- Specification: a path from `v` whose first node is labelled `a` and whose further edges and nodes are labelled
as given. -/
def Path (g : G T W) : Nat → T → List (W × T) → Prop
  | v, a, [] => node g v = some a
  | v, a, (w, b) :: r => node g v = some a ∧ ∃ es t, outEdges g v = some es ∧ (t, w) ∈ es ∧ Path g t b r

/-- Specification: a label sequence of a path from a root. -/
def Lang (g : G T W) (a : T) (ws : List (W × T)) : Prop := ∃ r, r ∈ g.roots ∧ Path g r a ws

/-- Specification: a graph as the code expects it: every vertex has a node, edges and roots stay inside. -/
def GWf (g : G T W) : Prop :=
  g.adj.length = g.nodes.length ∧ (∀ r, r ∈ g.roots → r < g.adj.length) ∧
  ∀ es, es ∈ g.adj → ∀ e, e ∈ es → e.1 < g.adj.length

end Phasar.DFAMin
