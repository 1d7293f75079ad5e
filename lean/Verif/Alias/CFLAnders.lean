/-!
# Model of the CFL-based Andersen alias analysis

Models `lib/PhasarLLVM/Pointer/external/llvm/CFLAndersAliasAnalysis.cpp` (the copy PhASAR ships) and the graph it works
on, `CFLGraph.h` in the same directory: building the graph from the instructions of one function, the closure of the
value aliases, the propagation of attributes, and the answer to a query.

Left out: summaries of callees with a body (`tryInterproceduralAnalysis`, `CFLGraph.h:384-424`, and the functions that
produce them, `CFLAndersAliasAnalysis.cpp:407-502`): every call is taken to be opaque; the cache of functions; offsets
and sizes (the analysis records `UnknownOffset` for every alias, `:399`, so they never decide); instructions on vectors
and aggregates except for the one case `Instr.cmpXchg`.  All values of the model are pointers: for others the builder
does nothing (`CFLGraph.h:223-224, :240-241`).
-/
namespace Phasar.CFLAnders

/-! ## The graph -/

/-- `AliasAttrs`, `AliasAnalysisSummary.h:62`.  The functions on it live in LLVM's `AliasAnalysisSummary.cpp`, which is
not part of the repository: one bit each for escaped, unknown, global and caller, and one bit per argument.  The bits of
the arguments are one bit here: queries only ask whether one of them is set. -/
structure Attr where
  esc : Bool := false
  unk : Bool := false
  glob : Bool := false
  caller : Bool := false
  arg : Bool := false
  deriving DecidableEq, Repr

/-- `operator|` of the bit set. -/
def Attr.or (a b : Attr) : Attr := ⟨a.esc || b.esc, a.unk || b.unk, a.glob || b.glob, a.caller || b.caller, a.arg || b.arg⟩

/-- `any()` of the bit set. -/
def Attr.any (a : Attr) : Bool := a.esc || a.unk || a.glob || a.caller || a.arg

/-- `hasUnknownOrCallerAttr`, declared in `AliasAnalysisSummary.h:78`. -/
def Attr.unkCaller (a : Attr) : Bool := a.unk || a.caller

/-- `isGlobalOrArgAttr`, declared in `AliasAnalysisSummary.h:91`. -/
def Attr.globalArg (a : Attr) : Bool := a.glob || a.arg

/-- `InstantiatedValue`, `AliasAnalysisSummary.h:203-206`: a value dereferenced a number of times. -/
structure Node where
  val : Nat
  lvl : Nat
  deriving DecidableEq, Repr

/-- The node one level below, `CFLAndersAliasAnalysis.cpp:633`. -/
def Node.below (n : Node) : Node := ⟨n.val, n.lvl + 1⟩

/-- `CFLGraph`, `CFLGraph.h:59-155`: the nodes added with their attributes, in the order of the calls of `addNode` and
`addAttr`, and the edges.  The code keeps a vector of levels per value. -/
structure Graph where
  log : List (Node × Attr) := []
  edges : List (Node × Node) := []

/-- `getNumLevels` of a value, `CFLGraph.h:79-96`: `addNodeToLevel` makes all levels up to the one asked for. -/
def Graph.levels (g : Graph) (v : Nat) : Nat :=
  g.log.foldl (fun n e => if e.1.val = v then max n (e.1.lvl + 1) else n) 0

/-- `getNode`, `CFLGraph.h:138-143`, as a test. -/
def Graph.has (g : Graph) (n : Node) : Bool := n.lvl < g.levels n.val

/-- `attrFor`, `CFLGraph.h:145-149`. -/
def Graph.attrFor (g : Graph) (n : Node) : Attr :=
  g.log.foldl (fun a e => if e.1 = n then a.or e.2 else a) {}

/-- `CFLGraph::addNode`, `CFLGraph.h:114-120`, and `addAttr`, `:122-126`. -/
def Graph.add (g : Graph) (n : Node) (a : Attr := {}) : Graph := { g with log := g.log ++ [(n, a)] }

/-- `CFLGraph::addEdge`, `CFLGraph.h:128-136`. -/
def Graph.edge (g : Graph) (s t : Node) : Graph := { g with edges := g.edges ++ [(s, t)] }

/-! ## Building the graph -/

/-- What an instruction does to pointers.  Values are numbers; an operand may also be an argument, a global or a
constant. -/
inductive Instr where
  /-- `x = alloca` -/
  | alloca (x : Nat)
  /-- `x = cast y`, `freeze`, `getelementptr`, a `select` or a `phi` with the listed incoming values -/
  | assign (froms : List Nat) (x : Nat)
  /-- `x = load p` -/
  | load (p x : Nat)
  /-- `store v, p` -/
  | store (v p : Nat)
  | ptrToInt (p : Nat)
  | intToPtr (x : Nat)
  /-- a call of a function that allocates (`malloc`, `calloc`), with the result -/
  | malloc (x : Nat)
  /-- a call of an opaque function: arguments, result, whether it only reads memory, whether its result is marked
  `noalias` -/
  | call (args : List Nat) (ret : Option Nat) (readOnly noAlias : Bool)
  /-- `r = cmpxchg p, _, v; x = extractvalue r, 0` -/
  | cmpXchg (p v x : Nat)
  | ret (v : Nat)
  deriving DecidableEq, Repr

/-- A function: its arguments (pointers, none of them marked `noalias`), which values are globals, which are constant
expressions `inttoptr`, and its instructions.  Other constant expressions (`getelementptr`, casts) are to be given as
`assign`: `visitConstantExpr` does the same as for the instructions, `CFLGraph.h:524-610`. -/
structure Fn where
  args : List Nat
  isGlobal : Nat → Bool
  isIntExpr : Nat → Bool := fun _ => false
  body : List Instr

/-- `addNode` of the visitor, `CFLGraph.h:206-219`.  For a constant expression the attribute given is not used, not even
in the call of `addNode` by which `visitConstantExpr` wants to mark an `inttoptr` as unknown, `:537-540`. -/
def addNode (f : Fn) (g : Graph) (v : Nat) (a : Attr := {}) : Graph :=
  if f.isGlobal v then
    if g.has ⟨v, 0⟩ then g.add ⟨v, 0⟩ { glob := true }
    else (g.add ⟨v, 0⟩ { glob := true }).add ⟨v, 1⟩ { unk := true }
  else if f.isIntExpr v then g.add ⟨v, 0⟩
  else g.add ⟨v, 0⟩ a

/-- `addAssignEdge`, `CFLGraph.h:221-231`. -/
def addAssignEdge (f : Fn) (g : Graph) (src dst : Nat) : Graph :=
  let g := addNode f g src
  if dst = src then g else (addNode f g dst).edge ⟨src, 0⟩ ⟨dst, 0⟩

/-- `addLoadEdge`, `CFLGraph.h:233-253`. -/
def addLoadEdge (f : Fn) (g : Graph) (src dst : Nat) : Graph :=
  ((addNode f (addNode f g src) dst).add ⟨src, 1⟩).edge ⟨src, 1⟩ ⟨dst, 0⟩

/-- `addStoreEdge`, `CFLGraph.h:233-254`. -/
def addStoreEdge (f : Fn) (g : Graph) (src dst : Nat) : Graph :=
  ((addNode f (addNode f g src) dst).add ⟨dst, 1⟩).edge ⟨src, 0⟩ ⟨dst, 1⟩

/-- The marks an opaque call leaves on one argument, `CFLGraph.h:460-469`. -/
def markArg (g : Graph) (v : Nat) : Graph := (g.add ⟨v, 0⟩ { esc := true }).add ⟨v, 1⟩ { unk := true }

/-- `visitCallBase`, `CFLGraph.h:426-478`, for a call that neither allocates nor has a summary. -/
def visitCall (f : Fn) (g : Graph) (args : List Nat) (ret : Option Nat) (readOnly noAlias : Bool) : Graph :=
  let g := args.foldl (fun g v => addNode f g v) g
  let g := match ret with | some x => addNode f g x | none => g
  let g := if readOnly then g else args.foldl markArg g
  match ret with
  | some x => if noAlias then g else g.add ⟨x, 0⟩ { unk := true }
  | none => g

/-- The visitor on one instruction, `CFLGraph.h:265-378` and `:426-515`.  The result of `cmpxchg` is an aggregate: only
the store is recorded, `:308-312`, and `extractvalue` does nothing, `:512-515` with `:240-241`. -/
def visit (f : Fn) (g : Graph) : Instr → Graph
  | .alloca x => addNode f g x
  | .assign froms x => froms.foldl (fun g y => addAssignEdge f g y x) g
  | .load p x => addLoadEdge f g p x
  | .store v p => addStoreEdge f g v p
  | .ptrToInt p => addNode f g p { esc := true }
  | .intToPtr x => addNode f g x { unk := true }
  | .malloc x => addNode f g x
  | .call args ret ro na => visitCall f g args ret ro na
  | .cmpXchg p v _ => addStoreEdge f g v p
  | .ret v => addNode f g v

/-- `addArgumentToGraph`, `CFLGraph.h:625-632`. -/
def addArgument (g : Graph) (v : Nat) : Graph := (g.add ⟨v, 0⟩ { arg := true }).add ⟨v, 1⟩ { caller := true }

/-- `buildGraphFrom`, `CFLGraph.h:649-658`. -/
def buildGraph (f : Fn) : Graph := f.args.foldl addArgument (f.body.foldl (visit f) {})

/-! ## The closure -/

/-- `MatchState`, `CFLAndersAliasAnalysis.cpp:104-127`. -/
inductive MState where
  | fromRO | fromMemNo | fromMemRO | toWO | toRW | toMemWO | toMemRW
  deriving DecidableEq, Repr

/-- `WorkListItem`, `CFLAndersAliasAnalysis.cpp:259-263`; also an entry of `ReachabilitySet`, `:164-184`. -/
structure Item where
  src : Node
  dst : Node
  st : MState
  deriving DecidableEq, Repr

/-- `ReachabilitySet` (`:164-200`), `AliasMemSet` (`:204-226`) and the work list being filled. -/
structure St where
  reach : List Item := []
  mem : List (Node × Node) := []
  next : List Item := []

/-- `propagate`, `CFLAndersAliasAnalysis.cpp:599-606`, with `insert`, `:175-184`. -/
def propagate (s : St) (i : Item) : St :=
  if i.src = i.dst then s
  else if i ∈ s.reach then s
  else { s with reach := s.reach ++ [i], next := s.next ++ [i] }

/-- Several calls of `propagate`. -/
def propagateAll (s : St) (l : List Item) : St := l.foldl propagate s

/-- `initializeWorkList`, `CFLAndersAliasAnalysis.cpp:608-629`.  The edges come in the order they were added instead of
the order of a hash table. -/
def initWork (g : Graph) : St :=
  propagateAll {} (g.edges.flatMap fun e => [⟨e.2, e.1, .fromRO⟩, ⟨e.1, e.2, .toWO⟩])

/-- `MemAliasPropagate`, `CFLAndersAliasAnalysis.cpp:664-674`, and the states handed to `NextMemState`, `:701-735`: the
state after a memory alias, if one may follow. -/
def MState.mem : MState → Option MState
  | .fromRO => some .fromMemRO
  | .toWO => some .toMemWO
  | .toRW => some .toMemRW
  | _ => none

/-- The states handed to `NextRevAssignState`, `:701-735`. -/
def MState.rev : MState → Option MState
  | .fromRO | .fromMemNo | .fromMemRO => some .fromRO
  | _ => none

/-- The states handed to `NextAssignState`, `:701-735`. -/
def MState.assign : MState → MState
  | .fromRO => .toRW
  | .fromMemNo => .toWO
  | .fromMemRO => .toRW
  | .toWO => .toWO
  | .toRW => .toRW
  | .toMemWO => .toWO
  | .toMemRW => .toRW

/-- The first half of `processWorkListItem`, `CFLAndersAliasAnalysis.cpp:654-676`: a new pair of value aliases makes a
pair of memory aliases, if both nodes below exist; everything that reaches the first one goes on to the second one. -/
def memStep (g : Graph) (s : St) (i : Item) : St :=
  if g.has i.src.below && g.has i.dst.below && !decide ((i.src.below, i.dst.below) ∈ s.mem) then
    let s := { s with mem := s.mem ++ [(i.src.below, i.dst.below)] }
    let s := propagate s ⟨i.src.below, i.dst.below, .fromMemNo⟩
    propagateAll s ((s.reach.filter fun j => j.dst = i.src.below).filterMap fun j =>
      j.st.mem.map fun q => ⟨j.src, i.dst.below, q⟩)
  else s

/-- `NextRevAssignState` as the switch calls it, `CFLAndersAliasAnalysis.cpp:690-693` and `:701-735`. -/
def revItems (g : Graph) (i : Item) : List Item :=
  match i.st.rev with
  | some q => (g.edges.filter fun e => e.2 = i.dst).map fun e => ⟨i.src, e.1, q⟩
  | none => []

/-- `NextAssignState` as the switch calls it, `CFLAndersAliasAnalysis.cpp:686-689` and `:701-735`. -/
def fwdItems (g : Graph) (i : Item) : List Item :=
  (g.edges.filter fun e => e.1 = i.dst).map fun e => ⟨i.src, e.2, i.st.assign⟩

/-- `NextMemState` as the switch calls it, `CFLAndersAliasAnalysis.cpp:694-699` and `:701-735`. -/
def memItems (m : List (Node × Node)) (i : Item) : List Item :=
  match i.st.mem with
  | some q => (m.filter fun e => e.1 = i.dst).map fun e => ⟨i.src, e.2, q⟩
  | none => []

/-- The switch of `processWorkListItem`, `CFLAndersAliasAnalysis.cpp:701-735`. -/
def walkStep (g : Graph) (s : St) (i : Item) : St :=
  propagateAll s (revItems g i ++ fwdItems g i ++ memItems s.mem i)

/-- `processWorkListItem`, `CFLAndersAliasAnalysis.cpp:639-736`. -/
def processItem (g : Graph) (s : St) (i : Item) : St := walkStep g (memStep g s i) i

/-- The loop of `buildInfoFrom`, `CFLAndersAliasAnalysis.cpp:795-804`: rounds over the work list.  The order of the
items of a round depends on the order of hash tables: it is given by `ord`. -/
def loop (g : Graph) (ord : List Item → List Item) : Nat → St → Option St
  | 0, s => if s.next = [] then some s else none
  | n + 1, s => if s.next = [] then some s else loop g ord n ((ord s.next).foldl (processItem g) { s with next := [] })

/-! ## Attributes -/

/-- All nodes of the graph, as the loops over `value_mappings` and levels see them, `:744-747`. -/
def Graph.nodes (g : Graph) : List Node :=
  (g.log.map (·.1.val)).eraseDups.flatMap fun v => (List.range (g.levels v)).map fun l => ⟨v, l⟩

/-- `AliasAttrMap` (`:229-257`) and the work list being filled; `getAttrs` of a node without entry gives no attribute. -/
structure ASt where
  at_ : Node → Attr
  next : List Node

/-- `AliasAttrMap::add`, `:237-244`, followed by the insertion into the work list if something changed. -/
def addAttr (s : ASt) (n : Node) (a : Attr) : ASt :=
  if (s.at_ n).or a = s.at_ n then s
  else { at_ := fun m => if m = n then (s.at_ n).or a else s.at_ m, next := s.next ++ [n] }

/-- The loop over the levels below, `:767-775`: it ends at the first one that changes.  The first argument bounds the
number of levels. -/
def belowLoop (g : Graph) (a : Attr) : Nat → ASt → Node → ASt
  | 0, s, _ => s
  | n + 1, s, x =>
    if g.has x.below then
      if (s.at_ x.below).or a = s.at_ x.below then belowLoop g a n s x.below else addAttr s x.below a
    else s

/-- One item of the work list of `buildAttrMap`, `:755-776`. -/
def attrItem (g : Graph) (reach : List Item) (s : ASt) (d : Node) : ASt :=
  let a := s.at_ d
  if a.any then
    let s := ((reach.filter fun j => j.dst = d).map (·.src)).foldl (fun s n => addAttr s n a) s
    belowLoop g a (g.levels d.val) s d
  else s

/-- The rounds of `buildAttrMap`, `:754-779`. -/
def attrLoop (g : Graph) (reach : List Item) (ord : List Node → List Node) : Nat → ASt → Option ASt
  | 0, s => if s.next = [] then some s else none
  | n + 1, s => if s.next = [] then some s
    else attrLoop g reach ord n ((ord s.next).foldl (attrItem g reach) { s with next := [] })

/-- The start of `buildAttrMap`, `:743-752`. -/
def attrInit (g : Graph) : ASt := { at_ := g.attrFor, next := g.nodes }

/-! ## The answer -/

/-- `FunctionInfo`, `:326-347`, without the summary. -/
structure Info where
  graph : Graph
  reach : List Item
  at_ : Node → Attr

/-- `buildInfoFrom`, `:784-812`. `none`: the given number of rounds did not suffice. -/
def analyze (f : Fn) (ord : List Item → List Item) (ordA : List Node → List Node) (fuel : Nat) : Option Info :=
  (loop (buildGraph f) ord fuel (initWork (buildGraph f))).bind fun s =>
  (attrLoop (buildGraph f) s.reach ordA fuel (attrInit (buildGraph f))).map fun a => ⟨buildGraph f, s.reach, a.at_⟩

/-- `FunctionInfo::getAttrs`, `:513-521`, with `populateAttrMap`, `:373-384`: every value of the graph has an entry. -/
def Info.attrs (r : Info) (v : Nat) : Option Attr := if 0 < r.graph.levels v then some (r.at_ ⟨v, 0⟩) else none

/-- `FunctionInfo::mayAlias`, `:523-597`, with `populateAliasMap`, `:386-405`. -/
def Info.mayAlias (r : Info) (x y : Nat) : Bool :=
  match r.attrs x, r.attrs y with
  | some a, some b =>
    if a.unkCaller then b.any
    else if b.unkCaller then a.any
    else if a.globalArg then b.globalArg
    else if b.globalArg then a.globalArg
    else r.reach.any fun j => j.dst = ⟨x, 0⟩ && j.src = ⟨y, 0⟩
  | _, _ => true

/-- `CFLAndersAAResult::query` and `alias`, `:850-901`, for two values of the function that are not both constants:
whether the answer differs from `NoAlias`.  What `AAResultBase` answers is `MayAlias`. -/
def Info.alias (r : Info) (x y : Nat) : Bool := x == y || r.mayAlias x y

end Phasar.CFLAnders
