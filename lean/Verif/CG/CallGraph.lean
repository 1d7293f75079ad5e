/-!
# Model of `CallGraph` and `CallGraphBuilder`

Models `include/phasar/ControlFlow/CallGraph.h` and `lib/ControlFlow/CallGraphData.cpp`.

Memory is explicit where it matters: function vertices live in a `std::vector` (`FunVertexOwner`), whose elements
move when it grows beyond its capacity, so a pointer to one is a pair of the vector's epoch and an index; it dangles
once the epoch has changed.  Instruction vertices live in a `StableVector`, whose elements never move (C28), so a
pointer to one is an index.  Reading or writing through a dangling pointer is `none`.
-/
namespace Phasar.CG

variable {N F : Type} [DecidableEq N] [DecidableEq F]

/-- The data of a `CallGraph`, `CallGraph.h:176-180`; `epoch` and `cap` are the identity of the buffer and the
capacity of `FunVertexOwner`. -/
structure CG (N F : Type) where
  inst : List (List F)
  epoch : Nat
  cap : Nat
  funs : List (List N)
  calleesAt : N → Option Nat
  callersOf : F → Option (Nat × Nat)

/-- A new builder, `CallGraph.h:272`. -/
def empty : CG N F := ⟨[], 0, 0, [], fun _ => none, fun _ => none⟩

/-- `CallGraphBuilder::reserve`, `CallGraph.h:192-196`: moves the function vertices if the capacity grows. -/
def reserve (g : CG N F) (n : Nat) : CG N F := if g.cap < n then { g with cap := n, epoch := g.epoch + 1 } else g

/-- `FunVertexOwner.emplace_back()`, `CallGraph.h:207`, without assertions: beyond the capacity the vector grows and
its elements move.  (The new capacity is not specified by C++; any larger one.) -/
def emplaceFun (g : CG N F) : CG N F :=
  if g.funs.length < g.cap then { g with funs := g.funs ++ [[]] }
  else { g with funs := g.funs ++ [[]], cap := 2 * g.cap + 1, epoch := g.epoch + 1 }

/-- `addFunctionVertex`, `CallGraph.h:201-210`: the pointer returned. -/
def addFun (g : CG N F) (f : F) : CG N F × (Nat × Nat) :=
  match g.callersOf f with
  | some p => (g, p)
  | none =>
    let g' := emplaceFun g
    let p := (g'.epoch, g.funs.length)
    ({ g' with callersOf := fun x => if x = f then some p else g'.callersOf x }, p)

/-- The assertion in `addFunctionVertex`, `CallGraph.h:204-206`. -/
def addFunOk (g : CG N F) (f : F) : Bool := (g.callersOf f).isSome || decide (g.funs.length < g.cap)

/-- `addInstructionVertex`, `CallGraph.h:216-222`. -/
def addInst (g : CG N F) (c : N) : CG N F × Nat :=
  match g.calleesAt c with
  | some i => (g, i)
  | none => ({ g with inst := g.inst ++ [[]],
                      calleesAt := fun x => if x = c then some g.inst.length else g.calleesAt x }, g.inst.length)

/-- Writing through a pointer to a function vertex. -/
def pushFun (g : CG N F) (p : Nat × Nat) (c : N) : Option (CG N F) :=
  if p.1 = g.epoch then (g.funs[p.2]?).map (fun l => { g with funs := g.funs.set p.2 (l ++ [c]) }) else none

/-- Writing through a pointer to an instruction vertex. -/
def pushInst (g : CG N F) (i : Nat) (f : F) : Option (CG N F) :=
  (g.inst[i]?).map (fun l => { g with inst := g.inst.set i (l ++ [f]) })

/-- The private `addCallEdge`, `CallGraph.h:266-270`. -/
def addEdge4 (g : CG N F) (c : N) (i : Nat) (f : F) (p : Nat × Nat) : Option (CG N F) :=
  (pushInst g i f).bind (fun g => pushFun g p c)

/-- `addCallEdge(n_t, f_t)`, `CallGraph.h:233-237`. -/
def addEdge (g : CG N F) (c : N) (f : F) : Option (CG N F) :=
  let r := addInst g c
  let q := addFun r.1 f
  addEdge4 q.1 c r.2 f q.2

/-- `addCallEdge(n_t, InstructionVertexTy *, f_t)`, `CallGraph.h:241-244`. -/
def addEdgeI (g : CG N F) (c : N) (i : Nat) (f : F) : Option (CG N F) :=
  let q := addFun g f
  addEdge4 q.1 c i f q.2

/-- `addCallEdge(n_t, f_t, FunctionVertexTy *)`, `CallGraph.h:248-251`. -/
def addEdgeF (g : CG N F) (c : N) (f : F) (p : Nat × Nat) : Option (CG N F) :=
  let r := addInst g c
  addEdge4 r.1 c r.2 f p

/-- `getCalleesOfCallAt`, `CallGraph.h:158-164`; `none`: a dangling pointer is read. -/
def calleesOf (g : CG N F) (c : N) : Option (List F) :=
  match g.calleesAt c with
  | some i => g.inst[i]?
  | none => some []

/-- Reading through a pointer to a function vertex. -/
def readFun (g : CG N F) (p : Nat × Nat) : Option (List N) := if p.1 = g.epoch then g.funs[p.2]? else none

/-- `getCallersOf`, `CallGraph.h:166-172`; `none`: a dangling pointer is read. -/
def callersOf (g : CG N F) (f : F) : Option (List N) :=
  match g.callersOf f with
  | some p => readFun g p
  | none => some []

/-! ## Use of the builder -/

/-- An operation of the builder.  `edgeI c k f` and `edgeF c f k` pass the vertex pointer that was handed out as the
`k`-th one. -/
inductive Op (N F : Type) where
  | fn (f : F)
  | inst (c : N)
  | edge (c : N) (f : F)
  | edgeI (c : N) (k : Nat) (f : F)
  | edgeF (c : N) (f : F) (k : Nat)
deriving DecidableEq

/-- A vertex pointer handed out: for a call site or for a function. -/
inductive Handle where
  | inst (i : Nat)
  | fn (p : Nat × Nat)
deriving DecidableEq

/-- One operation on the builder and the pointers handed out so far. -/
def step (s : CG N F × List Handle) : Op N F → Option (CG N F × List Handle)
  | .fn f => let r := addFun s.1 f; some (r.1, s.2 ++ [.fn r.2])
  | .inst c => let r := addInst s.1 c; some (r.1, s.2 ++ [.inst r.2])
  | .edge c f => (addEdge s.1 c f).map (fun g => (g, s.2))
  | .edgeI c k f => match s.2[k]? with
    | some (.inst i) => (addEdgeI s.1 c i f).map (fun g => (g, s.2))
    | _ => none
  | .edgeF c f k => match s.2[k]? with
    | some (.fn p) => (addEdgeF s.1 c f p).map (fun g => (g, s.2))
    | _ => none

/-- A sequence of operations. -/
def run (s : CG N F × List Handle) : List (Op N F) → Option (CG N F × List Handle)
  | [] => some s
  | o :: os => (step s o).bind (fun s' => run s' os)

/-! ## Specification -/

/-- Specification: the edges added so far, in order; the functions that have a vertex; and for whom each pointer was
handed out. -/
structure Spec (N F : Type) where
  edges : List (N × F)
  fns : List F
  tags : List (N ⊕ F)
deriving DecidableEq

/-- Specification: a set of functions as a list without duplicates. -/
def addTo (l : List F) (f : F) : List F := if f ∈ l then l else l ++ [f]

/-- Specification: one operation.  A pointer may only be used for the vertex it was handed out for, and at most `cap`
functions may get a vertex. -/
def specStep (cap : Nat) (s : Spec N F) : Op N F → Option (Spec N F)
  | .fn f => if (addTo s.fns f).length ≤ cap then some ⟨s.edges, addTo s.fns f, s.tags ++ [.inr f]⟩ else none
  | .inst c => some ⟨s.edges, s.fns, s.tags ++ [.inl c]⟩
  | .edge c f => if (addTo s.fns f).length ≤ cap then some ⟨s.edges ++ [(c, f)], addTo s.fns f, s.tags⟩ else none
  | .edgeI c k f => if s.tags[k]? = some (.inl c) ∧ (addTo s.fns f).length ≤ cap then
      some ⟨s.edges ++ [(c, f)], addTo s.fns f, s.tags⟩ else none
  | .edgeF c f k => if s.tags[k]? = some (.inr f) then some ⟨s.edges ++ [(c, f)], s.fns, s.tags⟩ else none

/-- Specification: a sequence of operations. -/
def specRun (cap : Nat) (s : Spec N F) : List (Op N F) → Option (Spec N F)
  | [] => some s
  | o :: os => (specStep cap s o).bind (fun s' => specRun cap s' os)

/-- Specification: the pairs passed to `addCallEdge`, in order. -/
def edgesOf : List (Op N F) → List (N × F)
  | [] => []
  | .edge c f :: os => (c, f) :: edgesOf os
  | .edgeI c _ f :: os => (c, f) :: edgesOf os
  | .edgeF c f _ :: os => (c, f) :: edgesOf os
  | _ :: os => edgesOf os

/-- Specification: the call sites of a function among the edges, in the order the edges were added. -/
def callersIn (E : List (N × F)) (f : F) : List N := (E.filter (fun e => e.2 = f)).map (fun e => e.1)

/-- Specification: the callees of a call site among the edges, in the order the edges were added. -/
def calleesIn (E : List (N × F)) (c : N) : List F := (E.filter (fun e => e.1 = c)).map (fun e => e.2)

/-! ## Serialization -/

/-- `CGData.FToFunctionVertexTy[k]` then appending, `CallGraph.h:96-102`: an `unordered_map` as an association list. -/
def appendAt (k : String) (l : List Nat) : List (String × List Nat) → List (String × List Nat)
  | [] => [(k, l)]
  | (k', l') :: d => if k' = k then (k', l' ++ l) :: d else (k', l') :: appendAt k l d

/-- The data collected by `printAsJson`, `CallGraph.h:90-104`, for the functions in the order of the map `CallersOf`;
`none`: a dangling pointer is read. -/
def collect (g : CG N F) (fid : F → String) (iid : N → Nat) : List F → List (String × List Nat) → Option (List (String × List Nat))
  | [], d => some d
  | f :: fs, d => (callersOf g f).bind (fun cs => collect g fid iid fs (appendAt (fid f) (cs.map iid) d))

/-- A JSON document of the shape `CallGraphData::printAsJson` writes: `null`, or an object whose values are `null` or
arrays of numbers.  Printing and parsing of the text are those of the JSON library and not modelled. -/
inductive Json where
  | null
  | obj (es : List (String × Option (List Nat)))
deriving DecidableEq

/-- `CallGraphData::printAsJson`, `CallGraphData.cpp:36-48`: a default-constructed `json` is `null` and becomes an
object when a key is added; likewise an entry becomes an array when a number is pushed. -/
def toJson : List (String × List Nat) → Json
  | [] => .null
  | d => .obj (d.map (fun e => (e.1, match e.2 with | [] => none | l => some l)))

/-- `getDataFromJson`, `CallGraphData.cpp:17-34`; `none`: `get<object_t>` throws. -/
def fromJson : Json → Option (List (String × List Nat))
  | .null => none
  | .obj es => some (es.map (fun e => (e.1, match e.2 with | none => [] | some l => l)))

/-- The loop over the call-site ids in `deserialize`, `CallGraph.h:295-303`; `none` as call site is the null pointer,
for which the edge is added as well. -/
def loadIds (getI : Nat → Option N) (f : F) : List Nat → CG (Option N) F → Option (CG (Option N) F)
  | [], g => some g
  | i :: is, g => (addEdge g (getI i) f).bind (fun g' => loadIds getI f is g')

/-- The loop over the functions in `deserialize`, `CallGraph.h:284-304`. -/
def loadFns (getF : String → Option F) (getI : Nat → Option N) : List (String × List Nat) → CG (Option N) F →
    Option (CG (Option N) F)
  | [], g => some g
  | e :: es, g => match getF e.1 with
    | none => loadFns getF getI es g
    | some f => (loadIds getI f e.2 (addFun g f).1).bind (fun g' => loadFns getF getI es g')

/-- `CallGraph::deserialize`, `CallGraph.h:276-306`. -/
def deserialize (getF : String → Option F) (getI : Nat → Option N) (d : List (String × List Nat)) : Option (CG (Option N) F) :=
  loadFns getF getI d (reserve empty d.length)

end Phasar.CG
