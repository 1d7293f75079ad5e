import Verif.CG.CallGraph
/-!
# Call-graph construction

Model of `lib/PhasarLLVM/ControlFlow/LLVMBasedCallGraphBuilder.cpp`.  `N` are call sites, `F` functions and `I` the other
instructions.  The graph is the one of `Verif.CG.CallGraph`, including its vertex pointers.  Logging and the PAMM counters
are left out.
-/
set_option linter.unusedSectionVars false
namespace Phasar.CG

variable {N F I σ : Type} [DecidableEq N] [DecidableEq F]

/-- What `fillPossibleTargets` sees of a call, `LLVMBasedCallGraphBuilder.cpp:109-129`: a function (called directly or
through pointer casts and aliases), inline assembly, or something to be resolved. -/
inductive Callee (F : Type) where
  | direct (f : F)
  | asm
  | dynamic
deriving DecidableEq

/-- An instruction as `processFunction` sees it, `LLVMBasedCallGraphBuilder.cpp:161-166`. -/
inductive Ins (N I : Type) where
  | call (c : N)
  | other (i : I)
deriving DecidableEq

/-- A module: the instructions of each function (`none`: a declaration, `F->isDeclaration()`), the kind of each call,
and the number of functions (`IRDB->getNumFunctions()`). -/
structure Mod (N F I : Type) where
  body : F → Option (List (Ins N I))
  callee : N → Callee F
  num : Nat

/-- `Resolver`, `Resolver/Resolver.h:64-98`: the virtual functions the builder calls, over the state `σ` of the resolver.
A set of targets is a list in the order in which the set is iterated.  `preCall` and `postCall` are left out: they do
nothing in `Resolver.cpp:153,158` and nothing in the repository overrides them.  `handlePossibleTargets` gets the targets by
reference, but no override changes them. -/
structure Resolver (σ N F I : Type) where
  resolve : σ → N → List F × σ
  handle : σ → N → List F → σ
  other : σ → I → σ
  mutates : Bool

/-- `Builder`, `LLVMBasedCallGraphBuilder.cpp:24-52`: the worklist (its back first), the visited functions,
`IndirectCalls`, the graph and the state of the resolver. -/
structure St (N F σ : Type) where
  wl : List F
  visited : List F
  ind : List (N × Nat)
  g : CG N F
  res : σ

/-- `IndirectCalls[CS] = n`, `LLVMBasedCallGraphBuilder.cpp:138, 232`. -/
def setInd (c : N) (n : Nat) : List (N × Nat) → List (N × Nat)
  | [] => [(c, n)]
  | p :: l => if p.1 = c then (c, n) :: l else p :: setInd c n l

/-- `IndirectCalls.count(CS)` and `IndirectCalls[CS]`, `LLVMBasedCallGraphBuilder.cpp:221-222`. -/
def getInd (c : N) : List (N × Nat) → Option Nat
  | [] => none
  | p :: l => if p.1 = c then some p.2 else getInd c l

/-- `initWorkList`, `LLVMBasedCallGraphBuilder.cpp:54-60`. -/
def init (m : Mod N F I) (entries : List F) (r : σ) : St N F σ := ⟨entries.reverse, [], [], reserve empty m.num, r⟩

/-- `fillPossibleTargets`, `LLVMBasedCallGraphBuilder.cpp:105-140`: targets, whether the call was resolved statically, and
the new state. -/
def fill (m : Mod N F I) (R : Resolver σ N F I) (c : N) (s : St N F σ) : List F × Bool × St N F σ :=
  match m.callee c with
  | .direct f => ([f], true, s)
  | .asm => ([], true, s)
  | .dynamic =>
    let a := R.resolve s.res c
    (a.1, false, { s with ind := setInd c a.1.length s.ind, res := a.2 })

/-- The loops that add the edges and push the targets, `LLVMBasedCallGraphBuilder.cpp:184-187, 242-245`; `i` is the vertex of
the call site, `none`: a dangling vertex pointer is used. -/
def addTargets (c : N) (i : Nat) : List F → St N F σ → Option (St N F σ)
  | [], s => some s
  | f :: fs, s => (addEdgeI s.g c i f).bind (fun g => addTargets c i fs { s with g := g, wl := f :: s.wl })

/-- One instruction in `processFunction`, `LLVMBasedCallGraphBuilder.cpp:161-189`. -/
def instr (m : Mod N F I) (R : Resolver σ N F I) (s : St N F σ) : Ins N I → Option (St N F σ × Bool)
  | .other i => some ({ s with res := R.other s.res i }, true)
  | .call c =>
    let t := fill m R c s
    let s1 := { t.2.2 with res := R.handle t.2.2.res c t.1 }
    let v := addInst s1.g c
    (addTargets c v.2 t.1 { s1 with g := v.1 }).map (fun s2 => (s2, t.2.1))

/-- The loop over the instructions, `LLVMBasedCallGraphBuilder.cpp:157-191`. -/
def instrs (m : Mod N F I) (R : Resolver σ N F I) : List (Ins N I) → St N F σ → Bool → Option (St N F σ × Bool)
  | [], s, b => some (s, b)
  | i :: is, s, b => (instr m R s i).bind (fun p => instrs m R is p.1 (b && p.2))

/-- `processFunction`, `LLVMBasedCallGraphBuilder.cpp:142-192`. -/
def process (m : Mod N F I) (R : Resolver σ N F I) (f : F) (s : St N F σ) : Option (St N F σ × Bool) :=
  match m.body f with
  | none => some (s, true)
  | some is =>
    if f ∈ s.visited then some (s, true)
    else instrs m R is { s with visited := f :: s.visited, g := (addFun s.g f).1 } true

/-- `while (!FunctionWL.empty())`, `LLVMBasedCallGraphBuilder.cpp:74-77`; the number bounds the iterations, `none` also if
it is reached. -/
def drain (m : Mod N F I) (R : Resolver σ N F I) : Nat → St N F σ → Bool → Option (St N F σ × Bool)
  | 0, _, _ => none
  | n + 1, s, b => match s.wl with
    | [] => some (s, b)
    | f :: w => (process m R f { s with wl := w }).bind (fun p => drain m R n p.1 (b && p.2))

/-- `constructDynamicCall`, `LLVMBasedCallGraphBuilder.cpp:194-248`; `none`: the vertex of the call site is missing, the
assertion fails or a dangling vertex pointer is used. -/
def dynamicCall (R : Resolver σ N F I) (c : N) (s : St N F σ) : Option (St N F σ × Bool) :=
  match s.g.calleesAt c, getInd c s.ind with
  | some i, some n =>
    let a := R.resolve s.res c
    if a.1.length ≤ n then some ({ s with res := a.2 }, false)
    else match s.g.inst[i]? with
      | some old =>
        let ts := a.1.filter (fun t => decide (t ∉ old))
        (addTargets c i ts { s with ind := setInd c a.1.length s.ind, res := R.handle a.2 c ts }).map (fun s' => (s', true))
      | none => none
  | _, _ => none

/-- The loop over `IndirectCalls`, `LLVMBasedCallGraphBuilder.cpp:83-85`. -/
def dynamicCalls (R : Resolver σ N F I) : List N → St N F σ → Bool → Option (St N F σ × Bool)
  | [], s, b => some (s, b)
  | c :: cs, s, b => (dynamicCall R c s).bind (fun p => dynamicCalls R cs p.1 (b && !p.2))

/-- The `do`-`while` loop of `buildCallGraph`, `LLVMBasedCallGraphBuilder.cpp:72-87`.  `req` is
`RequiresIndirectCallsFixpoint`; `ord` is the order in which `IndirectCalls` is iterated.  The number bounds the
iterations. -/
def rounds (m : Mod N F I) (R : Resolver σ N F I) (ord : List N → List N) (req : Bool) : Nat → St N F σ → Option (St N F σ)
  | 0, _ => none
  | n + 1, s => (drain m R n s true).bind (fun p =>
      (if req then dynamicCalls R (ord (p.1.ind.map (·.1))) p.1 p.2 else some p).bind (fun q =>
        if q.2 then some q.1 else rounds m R ord req n q.1))

/-- `buildLLVMBasedCallGraph`, `LLVMBasedCallGraphBuilder.cpp:251-272`, with `buildCallGraph`, `:62-103`; `sound` is
`S != Soundness::Unsound`. -/
def build (m : Mod N F I) (R : Resolver σ N F I) (ord : List N → List N) (entries : List F) (sound : Bool) (r : σ) (n : Nat) :
    Option (St N F σ) :=
  rounds m R ord (sound && R.mutates) n (init m entries r)

/-! ## Specification -/

/-- Specification: the targets of a call when `T` are those of the calls to be resolved. -/
def Targets (m : Mod N F I) (T : N → F → Prop) (c : N) (f : F) : Prop :=
  m.callee c = .direct f ∨ (m.callee c = .dynamic ∧ T c f)

/-- Specification: `c` is a call in the defined function `f`. -/
def CallIn (m : Mod N F I) (f : F) (c : N) : Prop := ∃ is, m.body f = some is ∧ Ins.call c ∈ is

/-- Specification: the functions reachable from the entry points through the targets `T`. -/
inductive Reach (m : Mod N F I) (entries : List F) (T : N → F → Prop) : F → Prop
  | entry {f : F} (h : f ∈ entries) : Reach m entries T f
  | call {f g : F} {c : N} (hf : Reach m entries T f) (hc : CallIn m f c) (hg : Targets m T c g) : Reach m entries T g

/-- Specification: the edges of all calls in reachable functions. -/
def Edges (m : Mod N F I) (entries : List F) (T : N → F → Prop) (c : N) (g : F) : Prop :=
  ∃ f, Reach m entries T f ∧ CallIn m f c ∧ Targets m T c g

/-- Specification: a resolver whose answers are `A K`, where `K` are the edges it has been told about
(`handlePossibleTargets`), and grow with `K`.  Asking does not change the answers. -/
structure Answers (R : Resolver σ N F I) (A : (N → F → Prop) → N → F → Prop) (know : σ → N → F → Prop) : Prop where
  ans : ∀ s c g, g ∈ (R.resolve s c).1 ↔ A (know s) c g
  nodup : ∀ s c, (R.resolve s c).1.Nodup
  ask : ∀ s c, know (R.resolve s c).2 = know s
  tell : ∀ s c ts, know (R.handle s c ts) = fun c' g => know s c' g ∨ (c' = c ∧ g ∈ ts)
  other : ∀ s i, know (R.other s i) = know s
  mono : ∀ K K' : N → F → Prop, (∀ c g, K c g → K' c g) → ∀ c g, A K c g → A K' c g

/-- Specification: the functions in `fs`, without repetition, are all that the module and the resolver mention. -/
structure Finite (m : Mod N F I) (R : Resolver σ N F I) (entries : List F) (fs : List F) : Prop where
  nodup : fs.Nodup
  len : fs.length ≤ m.num
  entries : ∀ f ∈ entries, f ∈ fs
  direct : ∀ c f, m.callee c = .direct f → f ∈ fs
  ans : ∀ s c, ∀ f ∈ (R.resolve s c).1, f ∈ fs
  nodupAns : ∀ s c, (R.resolve s c).1.Nodup

end Phasar.CG
