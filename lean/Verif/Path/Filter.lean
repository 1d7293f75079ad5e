import Verif.Path.Dag
/-!
# Model of the filtering of paths

Models `lib/PhasarLLVM/DataFlow/PathSensitivity/Z3BasedPathSensitivityManager.cpp` and `pathsTo` of
`include/phasar/PhasarLLVM/DataFlow/PathSensitivity/Z3BasedPathSensitvityManager.h`.  Z3 and the constraints of edges
(`LLVMPathConstraints`) are parameters.
-/
namespace Phasar.PathFilter
open Phasar

/-- `z3::check_result`, as used at `Z3BasedPathSensitivityManager.cpp:80, 389`. -/
inductive Sat where
  | sat | unsat | unknown
deriving DecidableEq

/-- The operations of Z3 that are used (`Z3BasedPathSensitivityManager.cpp:25, 52, 80, 99, 101, 125, 374-389, 405-416`,
`Z3BasedPathSensitvityManager.h:146`).  `check` gets the assertions on the solver. -/
structure Z3 (C : Type) where
  tt : C
  ff : C
  and : C → C → C
  or : C → C → C
  simplify : C → C
  isFalse : C → Bool
  check : List C → Sat

/-- What the filters read of the program: kinds of statements, the statements behind one in its block, whether a call has a known
callee with a body, and the first statements of the successors of a terminator. -/
structure Prog (N : Type) where
  isCall : N → Bool
  isExit : N → Bool
  isTerm : N → Bool
  definedCall : N → Bool
  rest : N → List N
  succFronts : N → List N

variable {N C : Type} [DecidableEq N]

/-- The loop of `isDirectSuccessorOf` (`Z3BasedPathSensitivityManager.cpp:264-287`); the list holds the statements behind `of`. -/
def directLoop (p : Prog N) (succ : N) : N → List N → Bool
  | of, [] => (p.succFronts of).contains succ
  | _, nxt :: r =>
    if nxt = succ then true
    else if p.isTerm nxt then (p.succFronts nxt).contains succ
    else if p.definedCall nxt then false
    else directLoop p succ nxt r

/-- `isDirectSuccessorOf` (`Z3BasedPathSensitivityManager.cpp:261-288`). -/
def isDirect (p : Prog N) (succ of : N) : Bool := directLoop p succ of (p.rest of)

/-! ## The call stack -/

/-- `CallStackPathFilter` (`Z3BasedPathSensitivityManager.cpp:307-316`).  Pointers to elements of the `StableVector` are their indices
(C28). -/
structure CSF (N : Type) where
  owner : List (Option Nat × N)
  safe : List (Nat × Option Nat)
  tos : Option Nat
  valid : Bool
deriving DecidableEq

/-- A new `CallStackPathFilter` (`Z3BasedPathSensitivityManager.cpp:313-316`). -/
def CSF.new : CSF N := ⟨[], [], none, true⟩

/-- `saveState` (`Z3BasedPathSensitivityManager.cpp:193`). -/
def CSF.save (s : CSF N) : CSF N := { s with safe := s.safe ++ [(s.owner.length, s.tos)] }

/-- `restoreState` (`Z3BasedPathSensitivityManager.cpp:195-201`); `none` if there is no saved state or it is longer. -/
def CSF.restore (s : CSF N) : Option (CSF N) :=
  s.safe.getLast?.bind fun q =>
    if q.1 ≤ s.owner.length then some ⟨s.owner.take q.1, s.safe.dropLast, q.2, true⟩ else none

/-- `pushCS` (`Z3BasedPathSensitivityManager.cpp:290-295`). -/
def CSF.push (s : CSF N) (c : N) : CSF N := { s with owner := s.owner ++ [(s.tos, c)], tos := some s.owner.length }

/-- `popCS` (`Z3BasedPathSensitivityManager.cpp:297-303`); `none` if `TOS` points nowhere. -/
def CSF.pop (s : CSF N) : Option (CSF N × N) :=
  s.tos.bind fun t => (s.owner[t]?).map fun e => ({ s with tos := e.1 }, e.2)

/-- `saveEdge` (`Z3BasedPathSensitivityManager.cpp:203-241`). -/
def CSF.saveEdge (p : Prog N) (s : CSF N) (prev inst : N) : Option (CSF N) :=
  if !s.valid then some s
  else if p.isCall prev && !isDirect p inst prev then some (s.push prev)
  else if p.isExit prev then
    if s.tos = none then some s
    else s.pop.map fun r => if !isDirect p inst r.2 then { r.1 with valid := false } else r.1
  else some s

/-- `saveFinalEdge` (`Z3BasedPathSensitivityManager.cpp:243-256`). -/
def CSF.saveFinal (p : Prog N) (s : CSF N) (prev : Option N) (final : N) : Option (CSF N × Bool) :=
  if !s.valid then some (s, false)
  else match prev with
    | none => some (s, true)
    | some q =>
      if p.isExit q then
        if s.tos = none then some (s, true)
        else s.pop.map fun r => (r.1, isDirect p final r.2)
      else some (s, true)

/-! ## The constraints -/

/-- The constraint of an edge and its variables (`LLVMPathConstraints.h:37-53`), a parameter. -/
abbrev Constr (N C : Type) := N → N → Option (C × List Nat)

/-- `ConstraintPathFilter` (`Z3BasedPathSensitivityManager.cpp:442-453`) without counters.  The solver is the list of its assertions and,
for every `push`, their number; the model of the last check is the list of the assertions it is a model of. -/
structure CPF (C : Type) where
  asserts : List C
  levels : List Nat
  symAtoms : List Nat
  numAtoms : List Nat
  localAtoms : List Nat
  model : Option (List C)
  need : Bool

/-- The constructor (`Z3BasedPathSensitivityManager.cpp:323-330`). -/
def CPF.new (add : C) : CPF C := ⟨[add], [1], [], [0], [], none, false⟩

/-- `saveState` (`Z3BasedPathSensitivityManager.cpp:332-335`); `none` if `NumAtomsStack` is empty. -/
def CPF.save (s : CPF C) : Option (CPF C) :=
  s.numAtoms.getLast?.map fun n => { s with numAtoms := s.numAtoms ++ [n], levels := s.levels ++ [s.asserts.length] }

/-- `restoreState` (`Z3BasedPathSensitivityManager.cpp:337-348`).  The difference is unsigned; `none` if it is negative or if
`SymbolicAtoms` has fewer elements. -/
def CPF.restore (s : CPF C) : Option (CPF C) :=
  s.levels.getLast?.bind fun l => s.numAtoms.getLast?.bind fun n => s.numAtoms.dropLast.getLast?.bind fun n' =>
    if n' ≤ n ∧ n - n' ≤ s.symAtoms.length then
      some { s with asserts := s.asserts.take l, levels := s.levels.dropLast, numAtoms := s.numAtoms.dropLast,
                    symAtoms := s.symAtoms.take (s.symAtoms.length - (n - n')), need := false, localAtoms := [], model := none }
    else none

/-- `saveEdge` (`Z3BasedPathSensitivityManager.cpp:350-359`). -/
def CPF.saveEdge (con : Constr N C) (s : CPF C) (prev inst : N) : CPF C :=
  match con prev inst with
  | some (c, vs) => { s with asserts := s.asserts ++ [c], localAtoms := s.localAtoms ++ vs }
  | none => s

/-- `checkLocalAtomsOverlap` (`Z3BasedPathSensitivityManager.cpp:423-440`).  Simplified: the order of the atoms is not modelled, sorting
and removing equal neighbours is removing duplicates. -/
def CPF.overlap (s : CPF C) : CPF C × Bool :=
  if s.need then (s, true)
  else
    let loc := s.localAtoms.eraseDups
    let sym := loc.foldl (fun acc a => if a ∈ acc then acc else acc ++ [a]) s.symAtoms
    ({ s with symAtoms := sym, localAtoms := [] }, sym.length - s.symAtoms.length != loc.length)

/-- `isValid` (`Z3BasedPathSensitivityManager.cpp:361-397`). -/
def CPF.isValid (z : Z3 C) (s : CPF C) : CPF C × Bool :=
  if s.localAtoms.isEmpty && !s.need then (s, true)
  else
    let (s, b) := s.overlap
    if !b then (s, true)
    else if z.check s.asserts = .unsat then ({ s with need := false }, false)
    else ({ s with need := false, model := some s.asserts }, true)

/-- `saveFinalEdge` (`Z3BasedPathSensitivityManager.cpp:399-403`). -/
def CPF.saveFinal (z : Z3 C) (con : Constr N C) (s : CPF C) (prev : N) (final : N) : CPF C × Bool :=
  CPF.isValid z { s.saveEdge con prev final with need := true }

/-- `getPathConstraints` (`Z3BasedPathSensitivityManager.cpp:405-416`). -/
def CPF.constraints (z : Z3 C) (s : CPF C) : C :=
  match s.asserts with
  | [] => z.tt
  | c :: cs => z.simplify (cs.foldl z.and c)

/-! ## Removing edges that no satisfiable path takes -/

/-- The graph and `FilterContext` (`Z3BasedPathSensitivityManager.cpp:16-27`). -/
structure FSt (N C : Type) where
  g : Adj.Graph (List N) Nat
  vis : List Nat
  nc : List C

/-- Specification and model: the neighbouring statements of a list. -/
def pairs (l : List N) : List (N × N) := l.zip l.tail

/-- The constraint inside one vertex (`Z3BasedPathSensitivityManager.cpp:45-54`); the label is in backward order. -/
def inner (z : Z3 C) (con : Constr N C) (l : List N) : C :=
  (pairs l.reverse).foldl (fun x q => match con q.1 q.2 with | some c => z.and x c.1 | none => x) z.tt

/-- The constraint of going on to a vertex (`Z3BasedPathSensitivityManager.cpp:69-75`); `none` if a label is empty. -/
def across (z : Z3 C) (con : Constr N C) (y : C) (l l' : List N) : Option C :=
  match l.head?, l'.getLast? with
  | some a, some b => some (match con a b with | some c => z.and y c.1 | none => y)
  | _, _ => none

/-- One round of the loop over the edges of `v` (`Z3BasedPathSensitivityManager.cpp:58-89`); the position of the iterator is `i`. -/
def edgeRound (z : Z3 C) (con : Constr N C) (add : Option C) (rec : Nat → FSt N C → Option (FSt N C × C)) (v : Nat) (l : List N) (x : C)
    (s : FSt N C × Nat × List C) : Option (FSt N C × Nat × List C) :=
  (s.1.g.adj[v]?).bind fun es => (es[s.2.1]?).bind fun u =>
  (if u ∈ s.1.vis then some s.1 else (rec u s.1).map (·.1)).bind fun st =>
  (st.nc[u]?).bind fun y => (st.g.nodes[u]?).bind fun l' => (across z con y l l').bind fun y =>
    if z.check (add.toList ++ [x, y]) = .unsat then (Adj.removeEdge st.g v s.2.1).map fun g => ({ st with g := g }, s.2.1, s.2.2)
    else some (st, s.2.1 + 1, s.2.2 ++ [y])

/-- The loop over the edges (`Z3BasedPathSensitivityManager.cpp:58-89`).  Every round removes an edge or advances the iterator, so that
there are as many rounds as edges at the start. -/
def edgeLoop (z : Z3 C) (con : Constr N C) (add : Option C) (rec : Nat → FSt N C → Option (FSt N C × C)) (v : Nat) (l : List N) (x : C) :
    Nat → FSt N C × Nat × List C → Option (FSt N C × Nat × List C)
  | 0, s => some s
  | n + 1, s => (edgeRound z con add rec v l x s).bind (edgeLoop z con add rec v l x n)

/-- `doFilter` (`Z3BasedPathSensitivityManager.cpp:42-102`): the state and the constraint returned.  The first argument bounds the
recursion; `none` also stands for an empty label and for the unreachable place at line 95. -/
def filterAt (z : Z3 C) (con : Constr N C) (add : Option C) (leaf : Nat) : Nat → Nat → FSt N C → Option (FSt N C × C)
  | 0, _, _ => none
  | k + 1, v, st =>
    (st.g.nodes[v]?).bind fun l => (st.g.adj[v]?).bind fun es =>
    if l = [] then none
    else
      let x := inner z con l
      (edgeLoop z con add (filterAt z con add leaf k) v l x es.length ({ st with vis := v :: st.vis }, 0, [])).bind fun s =>
      (s.1.g.adj[v]?).bind fun es' =>
        if es' = [] then
          let c := if v = leaf then x else z.ff
          some ({ s.1 with nc := s.1.nc.set v c }, c)
        else
          match s.2.2 with
          | [] => none
          | y :: ys =>
            let c := z.simplify (z.and x (ys.foldl z.or y))
            some ({ s.1 with nc := s.1.nc.set v c }, c)

/-- One round of the loop over the roots (`Z3BasedPathSensitivityManager.cpp:106-117`); the position of the iterator is `i`. -/
def rootRound (z : Z3 C) (con : Constr N C) (add : Option C) (leaf k : Nat) (s : FSt N C × Nat × C) : Option (FSt N C × Nat × C) :=
  (s.1.g.roots[s.2.1]?).bind fun r => (filterAt z con add leaf k r s.1).bind fun q => (q.1.g.adj[r]?).bind fun es =>
    if r ≠ leaf ∧ es = [] then (Adj.removeRoot q.1.g s.2.1).map fun g => ({ q.1 with g := g }, s.2.1, z.or s.2.2 q.2)
    else some (q.1, s.2.1 + 1, z.or s.2.2 q.2)

/-- The loop over the roots (`Z3BasedPathSensitivityManager.cpp:106-117`). -/
def rootLoop (z : Z3 C) (con : Constr N C) (add : Option C) (leaf k : Nat) : Nat → FSt N C × Nat × C → Option (FSt N C × Nat × C)
  | 0, s => some s
  | n + 1, s => (rootRound z con add leaf k s).bind (rootLoop z con add leaf k n)

/-- `filterOutUnreachableNodes` (`Z3BasedPathSensitivityManager.cpp:11-126`): the graph and the constraint returned. -/
def filterOut (z : Z3 C) (con : Constr N C) (add : Option C) (leaf k : Nat) (g : Adj.Graph (List N) Nat) :
    Option (Adj.Graph (List N) Nat × C) :=
  (rootLoop z con add leaf k g.roots.length (⟨g, [], List.replicate g.adj.length z.tt⟩, 0, z.ff)).map fun s =>
    (s.1.g, z.simplify s.2.2)

/-! ## Enumerating the paths -/

/-- The variables of `filterAndFlattenRevDag` (`Z3BasedPathSensitivityManager.cpp:481-492`).  A path is given with its constraint and
the assertions of the model. -/
structure PSt (N C : Type) where
  cs : CSF N
  cf : CPF C
  path : List N
  prev : Option N
  ret : List (List N × C × List C)
  done : Nat

/-- The parameters of `filterAndFlattenRevDag` (`Z3BasedPathSensitivityManager.cpp:456-459`). -/
structure Job (N C : Type) where
  z : Z3 C
  con : Constr N C
  p : Prog N
  g : Adj.Graph (List N) Nat
  leaf : Nat
  final : N
  maxPaths : Nat

/-- One statement of a vertex (`Z3BasedPathSensitivityManager.cpp:509-519`). -/
def pushInst (j : Job N C) (st : PSt N C) (i : N) : Option (PSt N C) :=
  match st.prev with
  | none => some { st with path := st.path ++ [i], prev := some i }
  | some q => (st.cs.saveEdge j.p q i).map fun cs =>
      { st with path := st.path ++ [i], cs := cs, cf := st.cf.saveEdge j.con q i, prev := some i }

/-- At the leaf (`Z3BasedPathSensitivityManager.cpp:521-536`): both filters take the final edge, the second only if the first accepts.
`none` also stands for a missing model. -/
def atLeaf (j : Job N C) (st : PSt N C) : Option (PSt N C) :=
  (st.cs.saveFinal j.p st.prev j.final).bind fun r =>
    if !r.2 then some { st with cs := r.1 }
    else st.prev.bind fun q =>
      let c := st.cf.saveFinal j.z j.con q j.final
      if !c.2 then some { st with cs := r.1, cf := c.1 }
      else c.1.model.map fun m =>
        { st with cs := r.1, cf := c.1, ret := st.ret ++ [(st.path, c.1.constraints j.z, m)], done := st.done + 1 }

/-- The destructors of the `scope_exit` objects (`Z3BasedPathSensitivityManager.cpp:497-507`). -/
def leave (st : PSt N C) (len : Nat) (prev : Option N) : Option (PSt N C) :=
  if len ≤ st.path.length then
    st.cs.restore.bind fun cs => st.cf.restore.map fun cf => { st with cs := cs, cf := cf, path := st.path.take len, prev := prev }
  else none

/-- The part of `doFilter` behind the loop over the statements (`Z3BasedPathSensitivityManager.cpp:521-552`).  `none` also stands for
the fatal error. -/
def goOn (j : Job N C) (rec : Nat → PSt N C → Option (PSt N C)) (v : Nat) (st : PSt N C) : Option (PSt N C) :=
  if v = j.leaf then atLeaf j st
  else (j.g.adj[v]?).bind fun es =>
    if es = [] then none
    else if j.maxPaths ≤ st.done then some st
    else if !st.cs.valid then some st
    else
      let r := st.cf.isValid j.z
      let st := { st with cf := r.1 }
      if !r.2 then some st else es.foldlM (fun s u => rec u s) st

/-- `doFilter` (`Z3BasedPathSensitivityManager.cpp:494-553`).  The first argument bounds the recursion. -/
def flattenAt (j : Job N C) : Nat → Nat → PSt N C → Option (PSt N C)
  | 0, _, _ => none
  | k + 1, v, st =>
    (j.g.nodes[v]?).bind fun l => st.cf.save.bind fun cf =>
    (l.reverse.foldlM (pushInst j) { st with cs := st.cs.save, cf := cf }).bind fun st' =>
    (goOn j (flattenAt j k) v st').bind fun st' => leave st' st.path.length st.prev

/-- `filterAndFlattenRevDag` (`Z3BasedPathSensitivityManager.cpp:456-564`): the paths with their constraints. -/
def flatten (j : Job N C) (add : Option C) (k : Nat) : Option (List (List N × C × List C)) :=
  (j.g.roots.foldlM (fun s r => flattenAt j k r s) (⟨.new, .new (add.getD j.z.tt), [], none, [], 0⟩ : PSt N C)).map (·.ret)

/-- `deduplicatePaths` (`Z3BasedPathSensitivityManager.cpp:566-578`): of `x` and its equal neighbours only `x` is kept.  Two paths are equal
if their statements are (`FlowPath.h:47-49`). -/
def uniqueFrom {A B : Type} [DecidableEq B] (f : A → B) (x : A) : List A → List A
  | [] => [x]
  | y :: ys => if f x = f y then uniqueFrom f x ys else x :: uniqueFrom f y ys

/-- `deduplicatePaths` (`Z3BasedPathSensitivityManager.cpp:566-578`): of equal neighbours only the first is kept. -/
def uniqueBy {A B : Type} [DecidableEq B] (f : A → B) : List A → List A
  | [] => []
  | x :: xs => uniqueFrom f x xs

/-- The comparison of `deduplicatePaths` (`Z3BasedPathSensitivityManager.cpp:570-575`): by length, then lexicographically by address. -/
def pathLt (addr : N → Nat) (p q : List N) : Bool :=
  decide (p.length < q.length) || (decide (p.length = q.length) && decide (p.map addr < q.map addr))

/-- `deduplicatePaths` (`Z3BasedPathSensitivityManager.cpp:566-578`). -/
def dedup (addr : N → Nat) (ps : List (List N × C × List C)) : List (List N × C × List C) :=
  uniqueBy (·.1) (Adj.sort (fun a b => pathLt addr a.1 b.1) ps)

/-- The search for a leaf in `pathsTo` (`Z3BasedPathSensitvityManager.h:135-142`). -/
def findLeaf (g : Adj.Graph (List N) Nat) : Option Nat := (List.range g.adj.length).find? fun v => decide (g.adj[v]? = some [])

/-- `pathsTo` (`Z3BasedPathSensitvityManager.h:92-177`) on the graph of `pathsDagTo`. -/
def pathsTo (z : Z3 C) (con : Constr N C) (p : Prog N) (addr : N → Nat) (add : Option C) (maxPaths k : Nat) (inst : N)
    (g : Adj.Graph (List N) Nat) : Option (List (List N × C × List C)) :=
  (findLeaf g).bind fun leaf => (filterOut z con add leaf k g).bind fun r =>
    if z.isFalse r.2 then some []
    else (flatten ⟨z, con, p, r.1, leaf, inst, maxPaths⟩ add k).map (dedup addr)

/-! ## Specification -/

/-- Specification: what is required of Z3.  `holds m c`: the model `m` satisfies `c`. -/
structure Z3.Sound {M : Type} (z : Z3 C) (holds : M → C → Prop) : Prop where
  tt : ∀ m, holds m z.tt
  ff : ∀ m, ¬ holds m z.ff
  and : ∀ m a b, holds m (z.and a b) ↔ holds m a ∧ holds m b
  or : ∀ m a b, holds m (z.or a b) ↔ holds m a ∨ holds m b
  simplify : ∀ m a, holds m (z.simplify a) ↔ holds m a
  isFalse : ∀ m a, z.isFalse a = true → ¬ holds m a
  check : ∀ l, z.check l = .unsat → ∀ m, ¬ ∀ c ∈ l, holds m c

/-- Specification: Z3 finds that a conjunction with `false` is not satisfiable. -/
def Z3.SeesFalse (z : Z3 C) : Prop := ∀ l, (∃ c ∈ l, c = z.ff ∨ ∃ d, c = z.and z.ff d) → z.check l = .unsat

/-- Specification: the constraints of all steps of a path hold. -/
def Feasible {M : Type} (con : Constr N C) (holds : M → C → Prop) (m : M) (p : List N) : Prop :=
  ∀ q ∈ pairs p, ∀ c, con q.1 q.2 = some c → holds m c.1

/-- Specification: `succ` directly follows `of`: in the block of `of` without a call of a defined function in between, or at the start of
a block behind the block of `of` without such a call up to its end. -/
inductive Direct (p : Prog N) (succ : N) : N → List N → Prop
  | here {of r} : Direct p succ of (succ :: r)
  | skip {of nxt r} : p.isTerm nxt = false → p.definedCall nxt = false → Direct p succ nxt r → Direct p succ of (nxt :: r)
  | jump {of nxt r} : p.isTerm nxt = true → succ ∈ p.succFronts nxt → Direct p succ of (nxt :: r)
  | last {of} : succ ∈ p.succFronts of → Direct p succ of []

/-- Specification: the kind of a step. -/
inductive Step where
  | call | ret | intra
deriving DecidableEq

/-- Specification: a step enters a callee if it leaves a call and does not go on behind it; it returns if it leaves an exit. -/
def stepOf (p : Prog N) (q : N × N) : Step :=
  if p.isCall q.1 = true ∧ isDirect p q.2 q.1 = false then .call else if p.isExit q.1 = true then .ret else .intra

/-- Specification: calls and returns match. -/
inductive Balanced : List Step → Prop
  | nil : Balanced []
  | intra {l} : Balanced l → Balanced (.intra :: l)
  | call {l l'} : Balanced l → Balanced l' → Balanced (.call :: l ++ .ret :: l')

/-- Specification: every return that matches a call on the path goes on directly behind that call.  Returns without a call are allowed. -/
def Matched (p : Prog N) (path : List N) : Prop :=
  ∀ pre c mid r post, pairs path = pre ++ c :: mid ++ r :: post → stepOf p c = .call → stepOf p r = .ret →
    Balanced (mid.map (stepOf p)) → isDirect p r.2 c.1 = true

end Phasar.PathFilter
