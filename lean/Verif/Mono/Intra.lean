import Verif.Base.AMap
/-!
# Model of `IntraMonoSolver`

Models `include/phasar/DataFlow/Mono/Solver/IntraMonoSolver.h`.  The control-flow graph, the flow
function, the merge operator, the comparison and the seeds are the client's; they are the fields of
`IProb`.  Everything the solver does with them is modelled, including that `Analysis[n]` inserts a
default constructed container.
-/
set_option linter.unusedSectionVars false
namespace Phasar.IntraMono

/-- The inputs of the solver: the parts of `IntraMonoProblem`
(`include/phasar/DataFlow/Mono/IntraMonoProblem.h:38-112`) and of `CFGBase` the solver calls.
`funs` lists, per entry point, `getAllInstructionsOf` and `getAllControlFlowEdges` of the function
found for it (`IntraMonoSolver.h:50-56`); an entry point without a definition is a null dereference
in the code and outside the model. -/
structure IProb (N C : Type) where
  /-- `getAllInstructionsOf(F)` and `getAllControlFlowEdges(F)` for each entry point,
  `IntraMonoSolver.h:50-57`. -/
  funs : List (List N × List (N × N))
  /-- `CFG->getSuccsOf`, `IntraMonoSolver.h:97`. -/
  succs : N → List N
  /-- `CFG->getPredsOf`, `IntraMonoSolver.h:84`. -/
  preds : N → List N
  /-- `CFG->isBranchTarget`, `IntraMonoSolver.h:83`. -/
  branchTarget : N → N → Bool
  /-- `normalFlow`, `IntraMonoProblem.h:70`. -/
  flow : N → C → C
  /-- `merge`, `IntraMonoProblem.h:72`. -/
  merge : C → C → C
  /-- `equal_to`, `IntraMonoProblem.h:75`. -/
  equalTo : C → C → Bool
  /-- `allTop`, `IntraMonoProblem.h:78`. -/
  allTop : C
  /-- `mono_container_t{}`, what `Analysis[n]` inserts for a missing `n`. -/
  dflt : C
  /-- `c.insert(first, last)`, `IntraMonoSolver.h:64`. -/
  ins : C → C → C
  /-- `initialSeeds()`, `IntraMonoProblem.h:80`: an unordered map, in iteration order. -/
  seeds : List (N × C)

variable {N C : Type} [DecidableEq N]

/-- The value of `Analysis[n]`, `IntraMonoSolver.h:82`: a missing entry reads as the default. -/
def at' (P : IProb N C) (A : AMap N C) (n : N) : C :=
  match A.get n with
  | some c => c
  | none => P.dflt

/-- The side effect of `Analysis[n]`, `IntraMonoSolver.h:82`: a missing entry is inserted. -/
def touch (P : IProb N C) (A : AMap N C) (n : N) : AMap N C :=
  match A.get n with
  | some _ => A
  | none => A.set n P.dflt

/-- `Analysis.insert(make_pair(n, c))`, `IntraMonoSolver.h:59`: does not overwrite. -/
def insertNew (A : AMap N C) (n : N) (c : C) : AMap N C :=
  match A.get n with
  | some _ => A
  | none => A.set n c

/-- The state of the solver: `Worklist` and `Analysis`, `IntraMonoSolver.h:44-45`. -/
structure St (N C : Type) where
  wl : List (N × N)
  an : AMap N C

/-- The first loop of `initialize`, `IntraMonoSolver.h:50-61`. -/
def initFuns (P : IProb N C) (s : St N C) : St N C :=
  P.funs.foldl (fun s f =>
    { wl := f.2 ++ s.wl, an := f.1.foldl (fun A n => insertNew A n P.allTop) s.an }) s

/-- The second loop of `initialize`, `IntraMonoSolver.h:63-65`. -/
def initSeeds (P : IProb N C) (A : AMap N C) : AMap N C :=
  P.seeds.foldl (fun A x => A.set x.1 (P.ins (at' P A x.1) x.2)) A

/-- `initialize()`, `IntraMonoSolver.h:48-66`. -/
def initSt (P : IProb N C) (s : St N C) : St N C :=
  let s := initFuns P s
  { s with an := initSeeds P s.an }

/-- The inner loop merging the other predecessors, `IntraMonoSolver.h:84-93`. -/
def mergePreds (P : IProb N C) (src : N) : List N → AMap N C → C → AMap N C × C
  | [], A, out => (A, out)
  | p :: ps, A, out =>
    if p = src then mergePreds P src ps A out
    else mergePreds P src ps (touch P A p) (P.merge out (P.flow p (at' P A p)))

/-- One iteration of the `while` loop on the edge `(src, dst)`, `IntraMonoSolver.h:78-100`: the new
`Analysis` and the edges pushed. -/
def process (P : IProb N C) (A : AMap N C) (src dst : N) : AMap N C × List (N × N) :=
  let out := P.flow src (at' P A src)
  let A := touch P A src
  let r := if P.branchTarget src dst then mergePreds P src (P.preds dst) A out else (A, out)
  if P.equalTo r.2 (at' P r.1 dst) then (touch P r.1 dst, [])
  else (r.1.set dst r.2, (P.succs dst).map (fun n => (dst, n)))

/-- `step 2` of `solve()`, `IntraMonoSolver.h:77-101`, for at most `k` iterations; `none` when the
worklist is not empty by then. -/
def loop (P : IProb N C) : Nat → St N C → Option (AMap N C)
  | k, ⟨[], A⟩ => match k with | _ => some A
  | 0, ⟨_ :: _, _⟩ => none
  | k + 1, ⟨e :: wl, A⟩ =>
    let r := process P A e.1 e.2
    loop P k ⟨wl ++ r.2, r.1⟩

/-- `step 3` of `solve()`, `IntraMonoSolver.h:105-107`. -/
def finish (P : IProb N C) (A : AMap N C) : AMap N C := A.map (fun x => (x.1, P.flow x.1 x.2))

/-- `solve()`, `IntraMonoSolver.h:73-108`, started with the given `Analysis`, for at most `k`
iterations. -/
def solve (P : IProb N C) (k : Nat) (A : AMap N C) : Option (AMap N C) :=
  (loop P k (initSt P ⟨[], A⟩)).map (finish P)

/-- `getResultsAt(n)`, `IntraMonoSolver.h:110`. -/
def getResultsAt (P : IProb N C) (A : AMap N C) (n : N) : C := at' P A n

/-- Specification: the control-flow edges of the analysed functions. -/
def Edge (P : IProb N C) (s d : N) : Prop := ∃ f ∈ P.funs, (s, d) ∈ f.2

/-- Specification: `n` is a statement of an analysed function. -/
def Node (P : IProb N C) (n : N) : Prop := ∃ f ∈ P.funs, n ∈ f.1

/-- Specification: `solve()` on a new solver returns with the in-facts `A` in `Analysis` just before
step 3. -/
def Returns (P : IProb N C) (A : AMap N C) : Prop :=
  ∃ k, loop P k (initSt P ⟨[], []⟩) = some A

/-- Specification: the graph the CFG queries describe is one graph: edges, predecessors and successors
agree, edges stay within the listed statements, and a statement with a predecessor other than `s` is
reported as a branch target of `s`. -/
structure WfCfg (P : IProb N C) : Prop where
  edge_succs : ∀ s d, Edge P s d → d ∈ P.succs s
  succs_edge : ∀ s d, Node P s → d ∈ P.succs s → Edge P s d
  edge_preds : ∀ s d, Edge P s d → s ∈ P.preds d
  preds_edge : ∀ s d, Node P d → s ∈ P.preds d → Edge P s d
  edge_nodes : ∀ s d, Edge P s d → Node P s ∧ Node P d
  target : ∀ s d, Edge P s d → P.branchTarget s d = false → ∀ p ∈ P.preds d, p = s

/-- Specification: a merge operator that is a semilattice join. -/
structure Semilattice (P : IProb N C) : Prop where
  assoc : ∀ a b c, P.merge (P.merge a b) c = P.merge a (P.merge b c)
  comm : ∀ a b, P.merge a b = P.merge b a
  idem : ∀ a, P.merge a a = a

/-- Specification: the order of the semilattice. -/
def Le (P : IProb N C) (a b : C) : Prop := P.merge a b = b

/-- Specification: `y` is the least upper bound of `S`. -/
def IsLub (P : IProb N C) (S : C → Prop) (y : C) : Prop :=
  (∀ v, S v → Le P v y) ∧ ∀ u, (∀ v, S v → Le P v u) → Le P y u

/-- Specification: the equations at the statements that have a predecessor: the in-fact is the merge of the
out-facts of all predecessors. -/
def Solution (P : IProb N C) (X : N → C) : Prop :=
  ∀ d, (∃ s, Edge P s d) → IsLub P (fun c => ∃ p, Edge P p d ∧ c = P.flow p (X p)) (X d)

/-- Specification: the boundary condition at the statements without a predecessor: `allTop` with the seeds
inserted. -/
def Boundary (P : IProb N C) (X : N → C) : Prop :=
  ∀ n, Node P n → (¬ ∃ s, Edge P s n) →
    (∀ c, (n, c) ∈ P.seeds → X n = P.ins P.allTop c) ∧ ((∀ c, (n, c) ∉ P.seeds) → X n = P.allTop)

/-! ## Reading and touching -/

theorem at_touch (P : IProb N C) (A : AMap N C) (n m : N) : at' P (touch P A n) m = at' P A m := by
  unfold touch at'
  cases h : A.get n with
  | some c => simp
  | none =>
    simp only [AMap.get_set]
    by_cases e : n = m
    · subst e; simp [h]
    · simp [e]

theorem at_set (P : IProb N C) (A : AMap N C) (n : N) (c : C) (m : N) :
    at' P (A.set n c) m = if n = m then c else at' P A m := by
  unfold at'
  simp only [AMap.get_set]
  by_cases e : n = m <;> simp [e]

/-- The out-fact computed for the edge `(s, d)`, as a function of the in-facts. -/
def outOf (P : IProb N C) (a : N → C) (s d : N) : C :=
  if P.branchTarget s d then
    ((P.preds d).filter (fun p => p ≠ s)).foldl (fun o p => P.merge o (P.flow p (a p))) (P.flow s (a s))
  else P.flow s (a s)

theorem mergePreds_at (P : IProb N C) (src : N) (ps : List N) (A : AMap N C) (o : C) (m : N) :
    at' P (mergePreds P src ps A o).1 m = at' P A m := by
  induction ps generalizing A o with
  | nil => rfl
  | cons p ps ih =>
    simp only [mergePreds]
    split
    · exact ih _ _
    · rw [ih, at_touch]

theorem mergePreds_out (P : IProb N C) (src : N) (ps : List N) (A : AMap N C) (o : C) :
    (mergePreds P src ps A o).2 =
      (ps.filter (fun p => p ≠ src)).foldl (fun o p => P.merge o (P.flow p (at' P A p))) o := by
  induction ps generalizing A o with
  | nil => rfl
  | cons p ps ih =>
    simp only [mergePreds]
    by_cases h : p = src
    · simp [h, ih]
    · simp only [h, if_false, ih]
      rw [List.filter_cons_of_pos (by simp [h]), List.foldl_cons]
      congr 1
      funext o p'
      rw [at_touch]

theorem process_spec (P : IProb N C) (A : AMap N C) (s d : N) :
    (P.equalTo (outOf P (at' P A) s d) (at' P A d) = true ∧
      (∀ m, at' P (process P A s d).1 m = at' P A m) ∧ (process P A s d).2 = []) ∨
    (P.equalTo (outOf P (at' P A) s d) (at' P A d) = false ∧
      (∀ m, at' P (process P A s d).1 m = if d = m then outOf P (at' P A) s d else at' P A m) ∧
      (process P A s d).2 = (P.succs d).map (fun n => (d, n))) := by
  -- the pair computed before the comparison
  have hr : ∀ r : AMap N C × C,
      r = (if P.branchTarget s d then
        mergePreds P s (P.preds d) (touch P A s) (P.flow s (at' P A s))
        else (touch P A s, P.flow s (at' P A s))) →
      (∀ m, at' P r.1 m = at' P A m) ∧ r.2 = outOf P (at' P A) s d := by
    intro r hr
    subst hr
    unfold outOf
    split
    · refine ⟨fun m => by rw [mergePreds_at, at_touch], ?_⟩
      rw [mergePreds_out]
      congr 1
      funext o p
      rw [at_touch]
    · exact ⟨fun m => at_touch P A s m, rfl⟩
  obtain ⟨h1, h2⟩ := hr _ rfl
  unfold process
  simp only
  rw [h2, h1]
  cases he : P.equalTo (outOf P (at' P A) s d) (at' P A d)
  · right
    refine ⟨rfl, ?_, by simp⟩
    intro m
    simp only [Bool.false_eq_true, if_false]
    rw [at_set, h1]
  · left
    refine ⟨rfl, ?_, by simp⟩
    intro m
    simp only [if_true]
    rw [at_touch, h1]

/-! ## Initialisation -/

theorem initFuns_wl (P : IProb N C) (fs : List (List N × List (N × N))) (s : St N C) (e : N × N) :
    e ∈ (fs.foldl (fun s f =>
      { wl := f.2 ++ s.wl, an := f.1.foldl (fun A n => insertNew A n P.allTop) s.an : St N C }) s).wl ↔
      e ∈ s.wl ∨ ∃ f ∈ fs, e ∈ f.2 := by
  induction fs generalizing s with
  | nil => simp
  | cons f fs ih =>
    rw [List.foldl_cons, ih]
    simp only [List.mem_append, List.mem_cons, exists_eq_or_imp]
    constructor
    · rintro ((h | h) | h) <;> simp [h]
    · rintro (h | h | h) <;> simp [h]

theorem initSt_wl (P : IProb N C) (A : AMap N C) (s d : N) :
    (s, d) ∈ (initSt P ⟨[], A⟩).wl ↔ Edge P s d := by
  show _ ∈ (initFuns P ⟨[], A⟩).wl ↔ _
  unfold initFuns
  rw [initFuns_wl]
  simp [Edge]

theorem insertNew_get (A : AMap N C) (n : N) (c : C) (m : N) :
    (insertNew A n c).get m = match A.get m with
      | some x => some x
      | none => if n = m then some c else none := by
  unfold insertNew
  cases h : A.get n with
  | some x =>
    cases h2 : A.get m with
    | some y => simp [h2]
    | none =>
      have : n ≠ m := by rintro rfl; rw [h] at h2; cases h2
      simp [this, h2]
  | none =>
    simp only [AMap.get_set]
    by_cases e : n = m
    · subst e; simp [h]
    · simp only [e, if_false]
      cases A.get m <;> rfl

theorem insertNew_foldl (ns : List N) (c : C) (A : AMap N C) (m : N) :
    (ns.foldl (fun A n => insertNew A n c) A).get m = match A.get m with
      | some x => some x
      | none => if m ∈ ns then some c else none := by
  induction ns generalizing A with
  | nil => simp only [List.foldl_nil]; cases A.get m <;> simp
  | cons n ns ih =>
    rw [List.foldl_cons, ih, insertNew_get]
    cases A.get m with
    | some x => rfl
    | none =>
      simp only
      by_cases e : n = m
      · subst e; simp
      · have : m ≠ n := fun h => e h.symm
        simp [e, this]

theorem initFuns_an (P : IProb N C) (fs : List (List N × List (N × N))) (s : St N C) (m : N) :
    ((fs.foldl (fun s f =>
      { wl := f.2 ++ s.wl, an := f.1.foldl (fun A n => insertNew A n P.allTop) s.an : St N C }) s).an).get m
      = match s.an.get m with
        | some x => some x
        | none => if m ∈ fs.flatMap (fun f => f.1) then some P.allTop else none := by
  induction fs generalizing s with
  | nil => simp only [List.foldl_nil]; cases s.an.get m <;> simp
  | cons f fs ih =>
    rw [List.foldl_cons, ih]
    simp only
    rw [insertNew_foldl]
    cases s.an.get m with
    | some x => rfl
    | none =>
      simp only [List.flatMap_cons, List.mem_append]
      by_cases e : m ∈ f.1
      · simp [e]
      · rw [if_neg e]
        simp only
        by_cases e2 : m ∈ fs.flatMap (fun f => f.1)
        · rw [if_pos e2, if_pos (.inr e2)]
        · rw [if_neg e2, if_neg (fun h => h.elim e e2)]

theorem initSeeds_at (P : IProb N C) (sd : List (N × C)) (hs : (sd.map Prod.fst).Nodup) (A : AMap N C) (m : N) :
    (∀ c, (m, c) ∈ sd → at' P (sd.foldl (fun A x => A.set x.1 (P.ins (at' P A x.1) x.2)) A) m
      = P.ins (at' P A m) c) ∧
    ((∀ c, (m, c) ∉ sd) → at' P (sd.foldl (fun A x => A.set x.1 (P.ins (at' P A x.1) x.2)) A) m = at' P A m) := by
  induction sd generalizing A with
  | nil => exact ⟨fun c h => (nomatch h), fun _ => rfl⟩
  | cons x sd ih =>
    obtain ⟨n, c0⟩ := x
    have hs' : (sd.map Prod.fst).Nodup := (List.nodup_cons.1 hs).2
    have hn : n ∉ sd.map Prod.fst := (List.nodup_cons.1 hs).1
    rw [List.foldl_cons]
    obtain ⟨i1, i2⟩ := ih hs' (A.set n (P.ins (at' P A n) c0))
    simp only [at_set] at i1 i2
    constructor
    · intro c hc
      rcases List.mem_cons.1 hc with h | h
      · obtain ⟨rfl, rfl⟩ := Prod.mk.inj h
        rw [i2 (fun c' hc' => hn (List.mem_map.2 ⟨_, hc', rfl⟩))]
        simp
      · have hne : n ≠ m := by
          rintro rfl
          exact hn (List.mem_map.2 ⟨_, h, rfl⟩)
        rw [i1 c h]; simp [hne]
    · intro hc
      have hne : n ≠ m := by
        rintro rfl
        exact hc c0 (by simp)
      rw [i2 (fun c h => hc c (List.mem_cons_of_mem _ h))]
      simp [hne]

/-- The value `initialize` gives a statement. -/
theorem initSt_at (P : IProb N C) (hs : (P.seeds.map Prod.fst).Nodup) (n : N) (hn : Node P n) :
    (∀ c, (n, c) ∈ P.seeds → at' P (initSt P ⟨[], []⟩).an n = P.ins P.allTop c) ∧
    ((∀ c, (n, c) ∉ P.seeds) → at' P (initSt P ⟨[], []⟩).an n = P.allTop) := by
  have h0 : at' P (initFuns P ⟨[], []⟩).an n = P.allTop := by
    have : (initFuns P ⟨[], []⟩).an.get n = some P.allTop := by
      unfold initFuns
      rw [initFuns_an]
      simp only [AMap.get_nil]
      rw [if_pos]
      obtain ⟨f, hf, hnf⟩ := hn
      exact List.mem_flatMap.2 ⟨f, hf, hnf⟩
    unfold at'; rw [this]
  obtain ⟨h1, h2⟩ := initSeeds_at P P.seeds hs (initFuns P ⟨[], []⟩).an n
  rw [h0] at h1 h2
  exact ⟨h1, h2⟩

/-! ## Induction over the loop -/

/-- An invariant of the iterations holds, with an empty worklist, when the loop ends. -/
theorem loop_inv {P : IProb N C} (I : List (N × N) → AMap N C → Prop)
    (hstep : ∀ s d wl A, I ((s, d) :: wl) A → I (wl ++ (process P A s d).2) (process P A s d).1) :
    ∀ k s A, I s.wl s.an → loop P k s = some A → I [] A := by
  intro k
  induction k with
  | zero =>
    rintro ⟨wl, an⟩ A h hl
    cases wl with
    | nil => simp only [loop, Option.some.injEq] at hl; subst hl; exact h
    | cons e wl => simp [loop] at hl
  | succ k ih =>
    rintro ⟨wl, an⟩ A h hl
    cases wl with
    | nil => simp only [loop, Option.some.injEq] at hl; subst hl; exact h
    | cons e wl =>
      obtain ⟨s, d⟩ := e
      simp only [loop] at hl
      exact ih _ _ (hstep s d wl an h) hl

/-! ## The equations hold at the end -/

/-- The worklist invariant: every statement with a predecessor is stable or about to be visited. -/
def Inv (P : IProb N C) (wl : List (N × N)) (A : AMap N C) : Prop :=
  (∀ s d, (s, d) ∈ wl → Edge P s d) ∧
  ∀ d, (∃ s, Edge P s d) → (∃ s, (s, d) ∈ wl) ∨
    ∃ s, Edge P s d ∧ P.equalTo (outOf P (at' P A) s d) (at' P A d) = true

theorem foldl_merge_congr {P : IProb N C} {a b : N → C} (l : List N) (o : C)
    (h : ∀ p ∈ l, a p = b p) :
    l.foldl (fun o p => P.merge o (P.flow p (a p))) o =
      l.foldl (fun o p => P.merge o (P.flow p (b p))) o := by
  induction l generalizing o with
  | nil => rfl
  | cons x l ih =>
    simp only [List.foldl_cons]
    rw [h x (by simp), ih _ (fun p hp => h p (List.mem_cons_of_mem _ hp))]

theorem outOf_congr {P : IProb N C} {a b : N → C} {s d : N} (hs : s ∈ P.preds d)
    (h : ∀ p ∈ P.preds d, a p = b p) : outOf P a s d = outOf P b s d := by
  unfold outOf
  rw [h s hs]
  split
  · exact foldl_merge_congr _ _ (fun p hp => h p ((List.mem_filter.1 hp).1))
  · rfl

theorem inv_step {P : IProb N C} (hw : WfCfg P) (hrefl : ∀ c, P.equalTo c c = true) (s d : N)
    (wl : List (N × N)) (A : AMap N C) (h : Inv P ((s, d) :: wl) A) :
    Inv P (wl ++ (process P A s d).2) (process P A s d).1 := by
  obtain ⟨h1, h2⟩ := h
  have hsd : Edge P s d := h1 s d (by simp)
  have hdn : Node P d := (hw.edge_nodes s d hsd).2
  rcases process_spec P A s d with ⟨he, hat, hp⟩ | ⟨he, hat, hp⟩
  · have hfun : at' P (process P A s d).1 = at' P A := funext hat
    rw [Inv, hp, hfun, List.append_nil]
    refine ⟨fun a b hab => h1 a b (List.mem_cons_of_mem _ hab), ?_⟩
    intro d2 hd2
    rcases h2 d2 hd2 with ⟨s2, hs2⟩ | hst
    · rcases List.mem_cons.1 hs2 with h | h
      · obtain ⟨rfl, rfl⟩ := Prod.mk.inj h
        exact .inr ⟨s2, hsd, he⟩
      · exact .inl ⟨s2, h⟩
    · exact .inr hst
  · rw [Inv, hp]
    refine ⟨?_, ?_⟩
    · intro a b hab
      rcases List.mem_append.1 hab with h | h
      · exact h1 a b (List.mem_cons_of_mem _ h)
      · obtain ⟨n, hn, heq⟩ := List.mem_map.1 h
        obtain ⟨rfl, rfl⟩ := Prod.mk.inj heq
        exact hw.succs_edge _ _ hdn hn
    · intro d2 hd2
      by_cases hdp : d ∈ P.preds d2
      · left
        obtain ⟨s0, hs0⟩ := hd2
        have he2 : Edge P d d2 := hw.preds_edge _ _ (hw.edge_nodes _ _ hs0).2 hdp
        exact ⟨d, List.mem_append.2 (.inr (List.mem_map.2 ⟨d2, hw.edge_succs _ _ he2, rfl⟩))⟩
      · have hsame : ∀ p ∈ P.preds d2, at' P (process P A s d).1 p = at' P A p := by
          intro p hp'
          rw [hat]
          have : d ≠ p := fun e => hdp (e ▸ hp')
          simp [this]
        by_cases hdd : d = d2
        · subst hdd
          right
          refine ⟨s, hsd, ?_⟩
          rw [outOf_congr (hw.edge_preds _ _ hsd) hsame, hat]
          simp [hrefl]
        · rcases h2 d2 hd2 with ⟨s2, hs2⟩ | ⟨s2, hs2, heq2⟩
          · left
            refine ⟨s2, ?_⟩
            rcases List.mem_cons.1 hs2 with h | h
            · exact absurd (Prod.mk.inj h).2.symm hdd
            · exact List.mem_append.2 (.inl h)
          · right
            refine ⟨s2, hs2, ?_⟩
            rw [outOf_congr (hw.edge_preds _ _ hs2) hsame, hat]
            simp [hdd, heq2]

theorem inv_init (P : IProb N C) : Inv P (initSt P ⟨[], []⟩).wl (initSt P ⟨[], []⟩).an :=
  ⟨fun s d h => (initSt_wl P [] s d).1 h,
    fun d ⟨s, hs⟩ => .inl ⟨s, (initSt_wl P [] s d).2 hs⟩⟩

/-! ## Order lemmas -/

section order
variable {P : IProb N C} (hl : Semilattice P)
include hl

theorem le_refl (a : C) : Le P a a := hl.idem a

theorem le_trans {a b c : C} (h1 : Le P a b) (h2 : Le P b c) : Le P a c := by
  unfold Le at *
  rw [← h2, ← hl.assoc, h1]

theorem le_antisymm {a b : C} (h1 : Le P a b) (h2 : Le P b a) : a = b := by
  unfold Le at *
  rw [← h2, hl.comm, h1]

theorem le_merge_left (a b : C) : Le P a (P.merge a b) := by
  unfold Le; rw [← hl.assoc, hl.idem]

theorem le_merge_right (a b : C) : Le P b (P.merge a b) := by
  rw [hl.comm]; exact le_merge_left hl b a

theorem merge_le {a b c : C} (h1 : Le P a c) (h2 : Le P b c) : Le P (P.merge a b) c := by
  unfold Le at *
  rw [hl.assoc, h2, h1]

theorem foldl_isLub (g : N → C) (l : List N) (o : C) :
    let r := l.foldl (fun o p => P.merge o (g p)) o
    Le P o r ∧ (∀ p ∈ l, Le P (g p) r) ∧ ∀ u, Le P o u → (∀ p ∈ l, Le P (g p) u) → Le P r u := by
  induction l generalizing o with
  | nil => exact ⟨le_refl hl o, fun p h => (nomatch h), fun u h _ => h⟩
  | cons x l ih =>
    simp only [List.foldl_cons]
    obtain ⟨h1, h2, h3⟩ := ih (P.merge o (g x))
    refine ⟨le_trans hl (le_merge_left hl _ _) h1, ?_, ?_⟩
    · intro p hp
      rcases List.mem_cons.1 hp with rfl | hp
      · exact le_trans hl (le_merge_right hl _ _) h1
      · exact h2 p hp
    · intro u hu hp
      exact h3 u (merge_le hl hu (hp x (by simp))) (fun p h => hp p (List.mem_cons_of_mem _ h))

/-- The out-fact computed for an edge is the least upper bound of the out-facts of the predecessors. -/
theorem outOf_isLub (hw : WfCfg P) (a : N → C) {s d : N} (hsd : Edge P s d) :
    IsLub P (fun c => ∃ p, Edge P p d ∧ c = P.flow p (a p)) (outOf P a s d) := by
  have hdn := (hw.edge_nodes s d hsd).2
  unfold outOf
  cases hb : P.branchTarget s d with
  | true =>
    simp only [if_true]
    obtain ⟨h1, h2, h3⟩ := foldl_isLub hl (fun p => P.flow p (a p))
      ((P.preds d).filter (fun p => p ≠ s)) (P.flow s (a s))
    refine ⟨?_, ?_⟩
    · rintro v ⟨p, hp, rfl⟩
      by_cases e : p = s
      · subst e; exact h1
      · exact h2 p (List.mem_filter.2 ⟨hw.edge_preds _ _ hp, by simp [e]⟩)
    · intro u hu
      refine h3 u (hu _ ⟨s, hsd, rfl⟩) ?_
      intro p hp
      exact hu _ ⟨p, hw.preds_edge _ _ hdn ((List.mem_filter.1 hp).1), rfl⟩
  | false =>
    simp only [Bool.false_eq_true, if_false]
    refine ⟨?_, fun u hu => hu _ ⟨s, hsd, rfl⟩⟩
    rintro v ⟨p, hp, rfl⟩
    rw [hw.target s d hsd hb p (hw.edge_preds _ _ hp)]
    exact le_refl hl _

end order

/-! ## Minimality -/

/-- Specification: `X` is closed under the flows along the edges and covers what the solver starts with. -/
structure Covers (P : IProb N C) (X : N → C) : Prop where
  flow : ∀ s d, Edge P s d → Le P (P.flow s (X s)) (X d)
  init : ∀ n, Node P n → Le P P.allTop (X n)
  seed : ∀ n c, (n, c) ∈ P.seeds → Node P n → Le P (P.ins P.allTop c) (X n)

/-- Specification: the flow functions are monotone. -/
def Monotone (P : IProb N C) : Prop := ∀ n a b, Le P a b → Le P (P.flow n a) (P.flow n b)

/-- The in-facts stay below every covering assignment. -/
def Below (P : IProb N C) (X : N → C) (wl : List (N × N)) (A : AMap N C) : Prop :=
  (∀ s d, (s, d) ∈ wl → Edge P s d) ∧ ∀ n, Node P n → Le P (at' P A n) (X n)

theorem below_step {P : IProb N C} (hl : Semilattice P) (hw : WfCfg P) (hm : Monotone P) {X : N → C}
    (hX : Covers P X) (s d : N) (wl : List (N × N)) (A : AMap N C) (h : Below P X ((s, d) :: wl) A) :
    Below P X (wl ++ (process P A s d).2) (process P A s d).1 := by
  obtain ⟨h1, h2⟩ := h
  have hsd : Edge P s d := h1 s d (by simp)
  have hdn : Node P d := (hw.edge_nodes s d hsd).2
  rcases process_spec P A s d with ⟨_, hat, hp⟩ | ⟨_, hat, hp⟩
  · rw [Below, hp, List.append_nil]
    exact ⟨fun a b hab => h1 a b (List.mem_cons_of_mem _ hab), fun n hn => by rw [hat]; exact h2 n hn⟩
  · rw [Below, hp]
    refine ⟨?_, ?_⟩
    · intro a b hab
      rcases List.mem_append.1 hab with h | h
      · exact h1 a b (List.mem_cons_of_mem _ h)
      · obtain ⟨n, hn, heq⟩ := List.mem_map.1 h
        obtain ⟨rfl, rfl⟩ := Prod.mk.inj heq
        exact hw.succs_edge _ _ hdn hn
    · intro n hn
      rw [hat]
      by_cases e : d = n
      · subst e
        simp only [if_true]
        refine (outOf_isLub hl hw _ hsd).2 _ ?_
        rintro v ⟨p, hp, rfl⟩
        exact le_trans hl (hm p _ _ (h2 p (hw.edge_nodes _ _ hp).1)) (hX.flow p d hp)
      · simp only [e, if_false]
        exact h2 n hn

theorem below_init {P : IProb N C} (hs : (P.seeds.map Prod.fst).Nodup) {X : N → C} (hX : Covers P X) :
    Below P X (initSt P ⟨[], []⟩).wl (initSt P ⟨[], []⟩).an := by
  refine ⟨fun s d h => (initSt_wl P [] s d).1 h, ?_⟩
  intro n hn
  obtain ⟨h1, h2⟩ := initSt_at P hs n hn
  by_cases hc : ∃ c, (n, c) ∈ P.seeds
  · obtain ⟨c, hc⟩ := hc
    rw [h1 c hc]
    exact hX.seed n c hc hn
  · rw [h2 (fun c h => hc ⟨c, h⟩)]
    exact hX.init n hn

/-- Statements without a predecessor keep their initial value. -/
theorem source_kept {P : IProb N C} (hw : WfCfg P) (n : N) (hn : ¬ ∃ s, Edge P s n) {A : AMap N C}
    (h : Returns P A) : at' P A n = at' P (initSt P ⟨[], []⟩).an n := by
  obtain ⟨k, hk⟩ := h
  have := loop_inv (P := P)
    (fun wl A => (∀ s d, (s, d) ∈ wl → Edge P s d) ∧ at' P A n = at' P (initSt P ⟨[], []⟩).an n)
    (by
      rintro s d wl A ⟨h1, h2⟩
      have hsd : Edge P s d := h1 s d (by simp)
      have hdn : Node P d := (hw.edge_nodes s d hsd).2
      rcases process_spec P A s d with ⟨_, hat, hp⟩ | ⟨_, hat, hp⟩
      · rw [hp, List.append_nil, hat]
        exact ⟨fun a b hab => h1 a b (List.mem_cons_of_mem _ hab), h2⟩
      · rw [hp, hat]
        refine ⟨?_, ?_⟩
        · intro a b hab
          rcases List.mem_append.1 hab with h | h
          · exact h1 a b (List.mem_cons_of_mem _ h)
          · obtain ⟨m, hm, heq⟩ := List.mem_map.1 h
            obtain ⟨rfl, rfl⟩ := Prod.mk.inj heq
            exact hw.succs_edge _ _ hdn hm
        · have : d ≠ n := by rintro rfl; exact hn ⟨s, hsd⟩
          simp [this, h2])
    k _ _ ⟨fun s d h => (initSt_wl P [] s d).1 h, rfl⟩ hk
  exact this.2

/-! ## The result map -/

theorem finish_get (P : IProb N C) (A : AMap N C) (n : N) :
    (finish P A).get n = (A.get n).map (P.flow n) := by
  unfold finish
  induction A with
  | nil => rfl
  | cons x A ih =>
    obtain ⟨m, c⟩ := x
    simp only [List.map_cons, AMap.get]
    by_cases h : m = n
    · simp [h]
    · simp only [h, if_false]; exact ih

theorem touch_keeps (P : IProb N C) (A : AMap N C) (m n : N) (h : (A.get n).isSome) :
    ((touch P A m).get n).isSome := by
  unfold touch
  cases A.get m with
  | some _ => exact h
  | none =>
    simp only [AMap.get_set]
    split
    · rfl
    · exact h

theorem mergePreds_keeps (P : IProb N C) (src : N) (ps : List N) (A : AMap N C) (o : C) (n : N)
    (h : (A.get n).isSome) : ((mergePreds P src ps A o).1.get n).isSome := by
  induction ps generalizing A o with
  | nil => exact h
  | cons p ps ih =>
    simp only [mergePreds]
    split
    · exact ih _ _ h
    · exact ih _ _ (touch_keeps P A p n h)

theorem process_keeps (P : IProb N C) (A : AMap N C) (s d n : N) (h : (A.get n).isSome) :
    ((process P A s d).1.get n).isSome := by
  unfold process
  simp only
  have h1 := touch_keeps P A s n h
  have h2 : ((if P.branchTarget s d then mergePreds P s (P.preds d) (touch P A s) (P.flow s (at' P A s))
      else (touch P A s, P.flow s (at' P A s))).1.get n).isSome := by
    split
    · exact mergePreds_keeps _ _ _ _ _ _ h1
    · exact h1
  generalize (if P.branchTarget s d then mergePreds P s (P.preds d) (touch P A s) (P.flow s (at' P A s))
      else (touch P A s, P.flow s (at' P A s))) = r at h2 ⊢
  split
  · exact touch_keeps _ _ _ _ h2
  · simp only [AMap.get_set]
    split
    · rfl
    · exact h2

theorem returns_keeps {P : IProb N C} {A : AMap N C} (h : Returns P A) {n : N} (hn : Node P n) :
    (A.get n).isSome := by
  obtain ⟨k, hk⟩ := h
  refine loop_inv (P := P) (fun _ A => (A.get n).isSome) ?_ k _ _ ?_ hk
  · intro s d wl A h
    exact process_keeps P A s d n h
  · have h0 : ((initFuns P ⟨[], []⟩).an.get n).isSome := by
      unfold initFuns
      rw [initFuns_an]
      simp only [AMap.get_nil]
      rw [if_pos]
      · rfl
      · obtain ⟨f, hf, hnf⟩ := hn
        exact List.mem_flatMap.2 ⟨f, hf, hnf⟩
    show ((initSeeds P (initFuns P ⟨[], []⟩).an).get n).isSome
    unfold initSeeds
    generalize (initFuns P ⟨[], []⟩).an = B at h0
    generalize P.seeds = sd
    induction sd generalizing B with
    | nil => exact h0
    | cons x sd ih =>
      rw [List.foldl_cons]
      apply ih
      simp only [AMap.get_set]
      split
      · rfl
      · exact h0

/-! ## Termination -/

/-- Sum of a rank over a list of statements. -/
def total (f : N → Nat) : List N → Nat
  | [] => 0
  | n :: ns => f n + total f ns

theorem total_le {f g : N → Nat} (h : ∀ n, f n ≤ g n) (l : List N) : total f l ≤ total g l := by
  induction l with
  | nil => exact Nat.le_refl _
  | cons x l ih => exact Nat.add_le_add (h x) ih

theorem total_lt {f g : N → Nat} (h : ∀ n, f n ≤ g n) {x : N} {l : List N} (hx : x ∈ l) (hlt : f x < g x) :
    total f l < total g l := by
  induction l with
  | nil => cases hx
  | cons y l ih =>
    rcases List.mem_cons.1 hx with rfl | hx
    · exact Nat.add_lt_add_of_lt_of_le hlt (total_le h l)
    · exact Nat.add_lt_add_of_le_of_lt (h y) (ih hx)

/-- The in-facts only rise: each is below what its predecessors would give it. -/
def Asc (P : IProb N C) (wl : List (N × N)) (A : AMap N C) : Prop :=
  (∀ s d, (s, d) ∈ wl → Edge P s d) ∧
  ∀ s d, Edge P s d → Le P (at' P A d) (outOf P (at' P A) s d)

theorem outOf_mono {P : IProb N C} (hl : Semilattice P) (hw : WfCfg P) (hm : Monotone P) {a b : N → C}
    (h : ∀ n, Le P (a n) (b n)) {s s' d : N} (hsd : Edge P s d) (hsd' : Edge P s' d) :
    Le P (outOf P a s d) (outOf P b s' d) := by
  refine (outOf_isLub hl hw a hsd).2 _ ?_
  rintro v ⟨p, hp, rfl⟩
  exact le_trans hl (hm p _ _ (h p)) ((outOf_isLub hl hw b hsd').1 _ ⟨p, hp, rfl⟩)

theorem asc_step {P : IProb N C} (hl : Semilattice P) (hw : WfCfg P) (hm : Monotone P) (s d : N)
    (wl : List (N × N)) (A : AMap N C) (h : Asc P ((s, d) :: wl) A) :
    Asc P (wl ++ (process P A s d).2) (process P A s d).1 ∧
    ∀ n, Le P (at' P A n) (at' P (process P A s d).1 n) := by
  obtain ⟨h1, h2⟩ := h
  have hsd : Edge P s d := h1 s d (by simp)
  have hdn : Node P d := (hw.edge_nodes s d hsd).2
  rcases process_spec P A s d with ⟨_, hat, hp⟩ | ⟨_, hat, hp⟩
  · have hfun : at' P (process P A s d).1 = at' P A := funext hat
    rw [Asc, hp, hfun, List.append_nil]
    exact ⟨⟨fun a b hab => h1 a b (List.mem_cons_of_mem _ hab), h2⟩, fun n => le_refl hl _⟩
  · have hup : ∀ n, Le P (at' P A n) (at' P (process P A s d).1 n) := by
      intro n
      rw [hat]
      by_cases e : d = n
      · subst e; simpa using h2 s d hsd
      · simp only [e, if_false]; exact le_refl hl _
    refine ⟨?_, hup⟩
    rw [Asc, hp]
    refine ⟨?_, ?_⟩
    · intro a b hab
      rcases List.mem_append.1 hab with h | h
      · exact h1 a b (List.mem_cons_of_mem _ h)
      · obtain ⟨n, hn, heq⟩ := List.mem_map.1 h
        obtain ⟨rfl, rfl⟩ := Prod.mk.inj heq
        exact hw.succs_edge _ _ hdn hn
    · intro s2 d2 hs2
      by_cases e : d = d2
      · subst e
        rw [hat]
        simp only [if_true]
        exact outOf_mono hl hw hm hup hsd hs2
      · rw [hat]
        simp only [e, if_false]
        exact le_trans hl (h2 s2 d2 hs2) (outOf_mono hl hw hm hup hs2 hs2)

/-- Specification: every ascending chain has at most `H` strict steps, counted by `h`. -/
structure FiniteHeight (P : IProb N C) (h : C → Nat) (H : Nat) : Prop where
  bound : ∀ c, h c ≤ H
  strict : ∀ a b, Le P a b → a ≠ b → h a < h b

theorem loop_terminates {P : IProb N C} (hl : Semilattice P) (hw : WfCfg P) (hm : Monotone P)
    (heq : ∀ a b, P.equalTo a b = true ↔ a = b) {h : C → Nat} {H : Nat} (hh : FiniteHeight P h H) :
    ∀ (m : Nat) (q : Nat) (wl : List (N × N)) (A : AMap N C), Asc P wl A →
      total (fun n => H - h (at' P A n)) (P.funs.flatMap (fun f => f.1)) ≤ m → wl.length ≤ q →
      ∃ k A', loop P k ⟨wl, A⟩ = some A' := by
  intro m
  induction m with
  | zero =>
    intro q
    induction q with
    | zero =>
      intro wl A _ _ hq
      have : wl = [] := List.length_eq_zero_iff.1 (Nat.le_zero.1 hq)
      subst this
      exact ⟨0, A, rfl⟩
    | succ q ihq =>
      intro wl A ha hm0 hq
      cases wl with
      | nil => exact ⟨0, A, rfl⟩
      | cons e wl =>
        obtain ⟨s, d⟩ := e
        obtain ⟨ha', hup⟩ := asc_step hl hw hm s d wl A ha
        have hsd : Edge P s d := ha.1 s d (by simp)
        rcases process_spec P A s d with ⟨_, hat, hp⟩ | ⟨he, hat, hp⟩
        · obtain ⟨k, A', hk⟩ := ihq (wl ++ (process P A s d).2) (process P A s d).1 ha'
            (by
              have : at' P (process P A s d).1 = at' P A := funext hat
              rw [this]; exact hm0)
            (by rw [hp]; simpa using hq)
          exact ⟨k + 1, A', hk⟩
        · exfalso
          have hne : at' P A d ≠ at' P (process P A s d).1 d := by
            rw [hat]
            simp only [if_true]
            intro e
            rw [e] at he
            rw [(heq _ _).2 rfl] at he
            cases he
          have h1 := hh.strict _ _ (hup d) hne
          have h2 := hh.bound (at' P (process P A s d).1 d)
          obtain ⟨f, hf, hdf⟩ := (hw.edge_nodes s d hsd).2
          have := total_lt (f := fun _ => 0) (g := fun n => H - h (at' P A n)) (fun _ => Nat.zero_le _)
            (List.mem_flatMap.2 ⟨f, hf, hdf⟩ : d ∈ P.funs.flatMap (fun f => f.1)) (by omega)
          omega
  | succ m ihm =>
    intro q
    induction q with
    | zero =>
      intro wl A _ _ hq
      have : wl = [] := List.length_eq_zero_iff.1 (Nat.le_zero.1 hq)
      subst this
      exact ⟨0, A, rfl⟩
    | succ q ihq =>
      intro wl A ha hm0 hq
      cases wl with
      | nil => exact ⟨0, A, rfl⟩
      | cons e wl =>
        obtain ⟨s, d⟩ := e
        obtain ⟨ha', hup⟩ := asc_step hl hw hm s d wl A ha
        have hsd : Edge P s d := ha.1 s d (by simp)
        rcases process_spec P A s d with ⟨_, hat, hp⟩ | ⟨he, hat, hp⟩
        · obtain ⟨k, A', hk⟩ := ihq (wl ++ (process P A s d).2) (process P A s d).1 ha'
            (by
              have : at' P (process P A s d).1 = at' P A := funext hat
              rw [this]; exact hm0)
            (by rw [hp]; simpa using hq)
          exact ⟨k + 1, A', hk⟩
        · have hne : at' P A d ≠ at' P (process P A s d).1 d := by
            rw [hat]
            simp only [if_true]
            intro e
            rw [e] at he
            rw [(heq _ _).2 rfl] at he
            cases he
          have h1 := hh.strict _ _ (hup d) hne
          have h2 := hh.bound (at' P (process P A s d).1 d)
          obtain ⟨f, hf, hdf⟩ := (hw.edge_nodes s d hsd).2
          have hlt := total_lt (f := fun n => H - h (at' P (process P A s d).1 n))
            (g := fun n => H - h (at' P A n))
            (fun n => by
              by_cases e : at' P A n = at' P (process P A s d).1 n
              · simp only [e]; exact Nat.le_refl _
              · have := hh.strict _ _ (hup n) e
                omega)
            (List.mem_flatMap.2 ⟨f, hf, hdf⟩ : d ∈ P.funs.flatMap (fun f => f.1)) (by omega)
          obtain ⟨k, A', hk⟩ := ihm _ (wl ++ (process P A s d).2) (process P A s d).1 ha'
            (by omega) (Nat.le_refl _)
          exact ⟨k + 1, A', hk⟩

end Phasar.IntraMono
