import Verif.Mono.Intra
import Verif.Mono.CallString
import Verif.Mono.Inter
/-!
# Properties C23-C25: the monotone framework
-/
set_option linter.unusedSectionVars false
namespace Phasar

/-! ## C23: `IntraMonoSolver` -/

section C23
open IntraMono
variable {N C : Type} [DecidableEq N]

/-- C23 for every merge operator and every comparison that accepts equal arguments: when `solve()` returns,
the in-fact of each statement with predecessors compares equal to the merge, in some order, of the
out-facts of exactly its predecessors, and `getResultsAt(n)` is the out-fact of `n`. -/
theorem C23_equations (P : IProb N C) (hw : WfCfg P) (hrefl : ∀ c, P.equalTo c c = true) (k : Nat)
    (R : AMap N C) (h : solve P k [] = some R) :
    ∃ X : N → C,
      (∀ d, (∃ s, Edge P s d) → ∃ s ps, (∀ p, p ∈ s :: ps ↔ Edge P p d) ∧
        P.equalTo (ps.foldl (fun o p => P.merge o (P.flow p (X p))) (P.flow s (X s))) (X d) = true) ∧
      ∀ n, Node P n → getResultsAt P R n = P.flow n (X n) := by
  unfold solve at h
  cases hA : loop P k (initSt P ⟨[], []⟩) with
  | none => rw [hA] at h; cases h
  | some A =>
    rw [hA] at h
    cases h
    have hret : Returns P A := ⟨k, hA⟩
    refine ⟨at' P A, ?_, ?_⟩
    · intro d hd
      have := loop_inv (Inv P) (fun s d wl A h => inv_step hw hrefl s d wl A h) k _ _ (inv_init P) hA
      rcases this.2 d hd with ⟨s, hs⟩ | ⟨s, hs, heq⟩
      · cases hs
      · have hdn := (hw.edge_nodes s d hs).2
        unfold outOf at heq
        cases hb : P.branchTarget s d with
        | true =>
          rw [hb] at heq
          refine ⟨s, (P.preds d).filter (fun p => p ≠ s), ?_, heq⟩
          intro p
          constructor
          · intro hp
            rcases List.mem_cons.1 hp with rfl | hp
            · exact hs
            · exact hw.preds_edge _ _ hdn (List.mem_filter.1 hp).1
          · intro hp
            by_cases e : p = s
            · subst e; exact List.mem_cons_self
            · exact List.mem_cons_of_mem _ (List.mem_filter.2 ⟨hw.edge_preds _ _ hp, by simp [e]⟩)
        | false =>
          rw [hb] at heq
          refine ⟨s, [], ?_, heq⟩
          intro p
          rw [List.mem_singleton]
          exact ⟨fun e => e ▸ hs, fun hp => hw.target s d hs hb p (hw.edge_preds _ _ hp)⟩
    · intro n hn
      have hs := returns_keeps hret hn
      unfold getResultsAt at'
      rw [finish_get]
      cases hg : A.get n with
      | none => rw [hg] at hs; cases hs
      | some c => rfl

theorem C23.returned {P : IProb N C} {k : Nat} {R : AMap N C} (h : solve P k [] = some R) :
    ∃ A, Returns P A ∧ ∀ n, Node P n → getResultsAt P R n = P.flow n (at' P A n) := by
  unfold solve at h
  cases hA : loop P k (initSt P ⟨[], []⟩) with
  | none => rw [hA] at h; cases h
  | some A =>
    rw [hA] at h
    cases h
    refine ⟨A, ⟨k, hA⟩, ?_⟩
    intro n hn
    have hs := returns_keeps ⟨k, hA⟩ hn
    unfold getResultsAt at'
    rw [finish_get]
    cases hg : A.get n with
    | none => rw [hg] at hs; cases hs
    | some c => rfl

theorem C23.solution {P : IProb N C} (hw : WfCfg P) (hl : Semilattice P)
    (heq : ∀ a b, P.equalTo a b = true ↔ a = b) {A : AMap N C} (h : Returns P A) :
    Solution P (at' P A) := by
  obtain ⟨k, hk⟩ := h
  have := loop_inv (Inv P) (fun s d wl A h => inv_step hw (fun c => (heq c c).2 rfl) s d wl A h) k _ _
    (inv_init P) hk
  intro d hd
  rcases this.2 d hd with ⟨s, hs⟩ | ⟨s, hs, he⟩
  · cases hs
  · have hx := outOf_isLub hl hw (at' P A) hs
    rw [(heq _ _).1 he] at hx
    exact hx

theorem C23.boundary {P : IProb N C} (hw : WfCfg P) (hs : (P.seeds.map Prod.fst).Nodup) {A : AMap N C}
    (h : Returns P A) : Boundary P (at' P A) := by
  intro n hn hno
  rw [source_kept hw n hno h]
  exact initSt_at P hs n hn

/-- C23, solution: when the merge operator is a semilattice join and `equal_to` decides equality, the
in-facts solve the data-flow equations: at every statement with predecessors the in-fact is the least upper
bound of the out-facts of all predecessors, at the others it is `allTop` with the seeds inserted, and
`getResultsAt(n)` is the out-fact of `n`. -/
theorem C23_solution (P : IProb N C) (hw : WfCfg P) (hl : Semilattice P)
    (heq : ∀ a b, P.equalTo a b = true ↔ a = b) (hs : (P.seeds.map Prod.fst).Nodup) (k : Nat)
    (R : AMap N C) (h : solve P k [] = some R) :
    ∃ X : N → C, Solution P X ∧ Boundary P X ∧ ∀ n, Node P n → getResultsAt P R n = P.flow n (X n) := by
  obtain ⟨A, hA, hR⟩ := C23.returned h
  exact ⟨at' P A, C23.solution hw hl heq hA, C23.boundary hw hs hA, hR⟩

/-- C23, least solution: if in addition the flows are monotone, `allTop` is the least element and only
statements without predecessors are seeded, the solution found is the least of all solutions. -/
theorem C23_least (P : IProb N C) (hw : WfCfg P) (hl : Semilattice P)
    (heq : ∀ a b, P.equalTo a b = true ↔ a = b) (hs : (P.seeds.map Prod.fst).Nodup)
    (hm : Monotone P) (htop : ∀ c, Le P P.allTop c)
    (hsrc : ∀ n c, (n, c) ∈ P.seeds → ¬ ∃ s, Edge P s n) (k : Nat)
    (R : AMap N C) (h : solve P k [] = some R) :
    ∃ X : N → C, Solution P X ∧ Boundary P X ∧ (∀ n, Node P n → getResultsAt P R n = P.flow n (X n)) ∧
      ∀ Y, Solution P Y → Boundary P Y → ∀ n, Node P n →
        Le P (X n) (Y n) ∧ Le P (getResultsAt P R n) (P.flow n (Y n)) := by
  obtain ⟨A, hA, hR⟩ := C23.returned h
  refine ⟨at' P A, C23.solution hw hl heq hA, C23.boundary hw hs hA, hR, ?_⟩
  intro Y hY hB n hn
  have hc : Covers P Y := by
    refine ⟨?_, fun n _ => htop _, ?_⟩
    · intro s d hsd
      exact (hY d ⟨s, hsd⟩).1 _ ⟨s, hsd, rfl⟩
    · intro n c hc hn
      rw [(hB n hn (hsrc n c hc)).1 c hc]
      exact IntraMono.le_refl hl _
  obtain ⟨k, hk⟩ := hA
  have := (loop_inv (Below P Y) (fun s d wl A h => below_step hl hw hm hc s d wl A h) k _ _
    (below_init hs hc) hk).2 n hn
  exact ⟨this, by rw [hR n hn]; exact hm n _ _ this⟩

/-- C23, bound for arbitrary seeds: whatever statements are seeded, the results stay below every assignment
that is closed under the flows and covers `allTop` and the seeds. -/
theorem C23_below (P : IProb N C) (hw : WfCfg P) (hl : Semilattice P) (hs : (P.seeds.map Prod.fst).Nodup)
    (hm : Monotone P) (k : Nat) (R : AMap N C) (h : solve P k [] = some R) (Y : N → C) (hY : Covers P Y)
    (n : N) (hn : Node P n) : Le P (getResultsAt P R n) (P.flow n (Y n)) := by
  obtain ⟨A, ⟨k, hk⟩, hR⟩ := C23.returned h
  rw [hR n hn]
  exact hm n _ _ ((loop_inv (Below P Y) (fun s d wl A h => below_step hl hw hm hY s d wl A h) k _ _
    (below_init hs hY) hk).2 n hn)

/-- C23, termination: for monotone flows over a semilattice of finite height with `allTop` least and seeds at
statements without predecessors, `solve()` returns. -/
theorem C23_terminates (P : IProb N C) (hw : WfCfg P) (hl : Semilattice P)
    (heq : ∀ a b, P.equalTo a b = true ↔ a = b) (hs : (P.seeds.map Prod.fst).Nodup)
    (hm : Monotone P) (htop : ∀ c, Le P P.allTop c)
    (hsrc : ∀ n c, (n, c) ∈ P.seeds → ¬ ∃ s, Edge P s n) (ht : C → Nat) (H : Nat)
    (hh : FiniteHeight P ht H) : ∃ k R, solve P k [] = some R := by
  have hasc : Asc P (initSt P ⟨[], []⟩).wl (initSt P ⟨[], []⟩).an := by
    refine ⟨fun s d h => (initSt_wl P [] s d).1 h, ?_⟩
    intro s d hsd
    have hn := (hw.edge_nodes s d hsd).2
    rw [(initSt_at P hs d hn).2 (fun c hc => hsrc d c hc ⟨s, hsd⟩)]
    exact htop _
  obtain ⟨k, A, hk⟩ := loop_terminates hl hw hm heq hh _ _ _ _ hasc (Nat.le_refl _) (Nat.le_refl _)
  exact ⟨k, finish P A, by unfold solve; rw [hk]; rfl⟩

/-! ### Instances -/

/-- A loop: `0 → 1 → 2 → 1`, `1 → 3`; facts are two flags merged by union; statement 0 generates the first,
statement 2 the second, statement 3 kills the first. -/
def C23.loopProb : IProb (Fin 4) (Bool × Bool) where
  funs := [([0, 1, 2, 3], [(0, 1), (1, 2), (1, 3), (2, 1)])]
  succs n := if n = 0 then [1] else if n = 1 then [2, 3] else if n = 2 then [1] else []
  preds n := if n = 1 then [0, 2] else if n = 2 then [1] else if n = 3 then [1] else []
  branchTarget _ d := d ≠ 0
  flow n c := if n = 0 then (true, c.2) else if n = 2 then (c.1, true) else if n = 3 then (false, c.2) else c
  merge a b := (a.1 || b.1, a.2 || b.2)
  equalTo a b := a == b
  allTop := (false, false)
  dflt := (false, false)
  ins a b := (a.1 || b.1, a.2 || b.2)
  seeds := [(0, (false, false))]

instance (P : IProb N C) (s d : N) : Decidable (Edge P s d) := by unfold Edge; infer_instance
instance (P : IProb N C) (n : N) : Decidable (Node P n) := by unfold Node; infer_instance
instance (P : IProb N C) [DecidableEq C] (a b : C) : Decidable (Le P a b) := by unfold Le; infer_instance

theorem C23.loopProb_wf : WfCfg loopProb :=
  ⟨by decide, by decide, by decide, by decide, by decide, by decide⟩

theorem C23.loopProb_lat : Semilattice loopProb :=
  ⟨by rintro ⟨a, b⟩ ⟨c, d⟩ ⟨e, f⟩; simp [loopProb, Bool.or_assoc],
   by rintro ⟨a, b⟩ ⟨c, d⟩; simp [loopProb, Bool.or_comm],
   by rintro ⟨a, b⟩; simp [loopProb]⟩

theorem C23.loopProb_eq : ∀ a b, loopProb.equalTo a b = true ↔ a = b := by
  intro a b; simp [loopProb]

theorem C23.loopProb_mono : Monotone loopProb := by
  intro n a b
  obtain ⟨a1, a2⟩ := a
  obtain ⟨b1, b2⟩ := b
  revert n
  cases a1 <;> cases a2 <;> cases b1 <;> cases b2 <;> decide

/-- The hypotheses of the C23 theorems hold of the loop; the second flag reaches the loop head and the
exit. -/
example : solve C23.loopProb 9 [] = some [(0, (true, false)), (1, (true, true)), (2, (true, true)), (3, (false, true))] := by
  decide

example : ∃ k R, solve C23.loopProb k [] = some R :=
  C23_terminates C23.loopProb C23.loopProb_wf C23.loopProb_lat C23.loopProb_eq (by decide) C23.loopProb_mono
    (by rintro ⟨a, b⟩; cases a <;> cases b <;> decide)
    (by intro n c h; simp [C23.loopProb] at h; obtain ⟨rfl, _⟩ := h; decide)
    (fun c => c.1.toNat + c.2.toNat) 2
    ⟨by rintro ⟨a, b⟩; cases a <;> cases b <;> decide,
     by rintro ⟨a, b⟩ ⟨c, d⟩; cases a <;> cases b <;> cases c <;> cases d <;> decide⟩

/-! ### Where the hypotheses are needed -/

/-- Seeds at a statement inside a loop: `0 → 2`, and the loop `1 → 2 → 3 → 1`, laid out so that the edges are
listed as in `funs`; all flows are the identity; statement 1 is seeded. -/
def C23.midSeed : IProb (Fin 4) Bool where
  funs := [([0, 2, 1, 3], [(0, 3), (2, 3), (1, 2), (3, 1)])]
  succs n := if n = 0 then [3] else if n = 2 then [3] else if n = 1 then [2] else [1]
  preds n := if n = 3 then [0, 2] else if n = 2 then [1] else if n = 1 then [3] else []
  branchTarget _ d := d ≠ 0
  flow _ c := c
  merge a b := a || b
  equalTo a b := a == b
  allTop := false
  dflt := false
  ins a b := a || b
  seeds := [(1, true)]

theorem C23.midSeed_cycle (k : Nat) :
    loop midSeed k ⟨[(1, 2), (3, 1)], [(0, false), (2, false), (1, true), (3, false)]⟩ = none := by
  induction k using Nat.strongRecOn with
  | _ k ih =>
    match k, ih with
    | 0, _ => decide
    | 1, _ => decide
    | 2, _ => decide
    | 3, _ => decide
    | 4, _ => decide
    | 5, _ => decide
    | k + 6, ih => exact ih k (by omega)

/-- C23, seeds inside a loop: for monotone flows over a two-element lattice `solve()` need not return when a
statement with predecessors is seeded, because `Analysis[Dst]` is overwritten rather than merged: here the
seeded fact circulates forever. -/
theorem C23_mid_seed_livelock :
    WfCfg C23.midSeed ∧ Semilattice C23.midSeed ∧ (∀ a b, C23.midSeed.equalTo a b = true ↔ a = b) ∧
    Monotone C23.midSeed ∧ (∀ c, Le C23.midSeed C23.midSeed.allTop c) ∧
    FiniteHeight C23.midSeed Bool.toNat 1 ∧ ∀ k, solve C23.midSeed k [] = none := by
  refine ⟨⟨by decide, by decide, by decide, by decide, by decide, by decide⟩,
    ⟨by decide, by decide, by decide⟩, by decide, ?_, by decide, ⟨by decide, by decide⟩, ?_⟩
  · intro n a b h; exact h
  · intro k
    have : loop C23.midSeed k (initSt C23.midSeed ⟨[], []⟩) = none := by
      match k with
      | 0 => decide
      | 1 => decide
      | k + 2 => exact C23.midSeed_cycle k
    unfold solve
    rw [this]; rfl

/-- `IntraMonoUninitVariables` (`lib/PhasarLLVM/DataFlow/Mono/Problems/IntraMonoUninitVariables.cpp:39-88`) on a
function with one local variable: `0: alloca`, loop head `1`, loop body `2`, `3: ret`. The fact is whether
the variable is in the set; `merge` is set intersection, `allTop` the empty set. -/
def C23.uninit : IProb (Fin 4) Bool where
  funs := [([0, 1, 2, 3], [(0, 1), (1, 2), (1, 3), (2, 1)])]
  succs n := if n = 0 then [1] else if n = 1 then [2, 3] else if n = 2 then [1] else []
  preds n := if n = 1 then [0, 2] else if n = 2 then [1] else if n = 3 then [1] else []
  branchTarget _ d := d ≠ 0
  flow n c := if n = 0 then true else c
  merge a b := a && b
  equalTo a b := a == b
  allTop := false
  dflt := false
  ins a b := a || b
  seeds := [(0, false)]

/-- C23 is false when `allTop` is not the least element of the merge order, as in the two clients that merge
by intersection but start from the empty set: the variable is uninitialised on every path, and the least
solution says so, but the solver reports the empty set throughout the loop. -/
theorem C23_uninit_loop :
    WfCfg C23.uninit ∧ Semilattice C23.uninit ∧ Monotone C23.uninit ∧
    (∃ R, solve C23.uninit 4 [] = some R ∧ getResultsAt C23.uninit R 2 = false) ∧
    ∃ Y, Solution C23.uninit Y ∧ Boundary C23.uninit Y ∧ C23.uninit.flow 2 (Y 2) = true ∧
      ¬ Le C23.uninit false (C23.uninit.flow 2 (Y 2)) := by
  refine ⟨⟨by decide, by decide, by decide, by decide, by decide, by decide⟩,
    ⟨by decide, by decide, by decide⟩, by unfold Monotone; decide, ⟨_, rfl, by decide⟩,
    fun n => n ≠ 0, ?_, ?_, by decide, by decide⟩
  · intro d hd
    constructor
    · rintro v ⟨p, hp, rfl⟩
      revert p d
      decide
    · intro u hu
      obtain ⟨s, hs⟩ := hd
      have := hu _ ⟨s, hs, rfl⟩
      revert this
      revert u s d
      decide
  · intro n hn hno
    have : n = 0 := by
      revert n
      decide
    subst this
    exact ⟨fun c hc => by simp [C23.uninit] at hc; subst hc; decide, fun h => absurd (by simp [C23.uninit]) (h false)⟩

/-- A join whose first instruction is a debug intrinsic: `0 → 1`, `0 → 2`, `1 → 2`; statement 2 is not the
first instruction of its basic block, so `isBranchTarget` (`LLVMBasedCFG.cpp:215-225`) denies that it is a
branch target although it has two predecessors. Statement 1 generates the fact. -/
def C23.noTarget : IProb (Fin 3) Bool where
  funs := [([0, 1, 2], [(0, 1), (0, 2), (1, 2)])]
  succs n := if n = 0 then [1, 2] else if n = 1 then [2] else []
  preds n := if n = 1 then [0] else if n = 2 then [1, 0] else []
  branchTarget _ d := d = 1
  flow n c := if n = 0 then true else if n = 1 then false else c
  merge a b := a || b
  equalTo a b := a == b
  allTop := false
  dflt := false
  ins a b := a || b
  seeds := [(0, false)]

/-- C23 needs `isBranchTarget` to hold at every join: otherwise the last predecessor visited overwrites the
others and a fact that reaches the join is missing from the result. -/
theorem C23_branch_target_needed :
    (∃ R, solve C23.noTarget 4 [] = some R ∧ getResultsAt C23.noTarget R 2 = false) ∧
    Edge C23.noTarget 0 2 ∧ ∀ c, C23.noTarget.flow 0 c = true ∧
    ¬ ∃ X, Solution C23.noTarget X ∧ C23.noTarget.flow 2 (X 2) = false := by
  refine ⟨⟨_, rfl, by decide⟩, by decide, fun c => ⟨by cases c <;> decide, ?_⟩⟩
  rintro ⟨X, hX, h2⟩
  have := (hX 2 ⟨0, by decide⟩).1 true ⟨0, by decide, by simp [C23.noTarget]⟩
  have h3 : X 2 = false := h2
  rw [h3] at this
  exact absurd this (by decide)

/-- A straight line `0 → 1` whose flow sets the first flag and moves its old value to the second. -/
def C23.shift : IProb (Fin 2) (Bool × Bool) where
  funs := [([0, 1], [(0, 1)])]
  succs n := if n = 0 then [1] else []
  preds n := if n = 1 then [0] else []
  branchTarget _ _ := false
  flow _ c := (true, c.1)
  merge a b := (a.1 || b.1, a.2 || b.2)
  equalTo a b := a == b
  allTop := (false, false)
  dflt := (false, false)
  ins a b := (a.1 || b.1, a.2 || b.2)
  seeds := [(0, (false, false))]

/-- Calling `solve()` a second time on the same solver does not recompute the result: `initialize()` does not
reset `Analysis`, which by then holds out-facts, so they are taken for in-facts. -/
theorem C23_solve_twice :
    ∃ R R', solve C23.shift 3 [] = some R ∧ solve C23.shift 3 R = some R' ∧
      getResultsAt C23.shift R 0 = (true, false) ∧ getResultsAt C23.shift R' 0 = (true, true) := by
  refine ⟨_, _, rfl, rfl, ?_, ?_⟩ <;> decide

end C23

/-! ## C24: `InterMonoSolver` -/

section C24
open InterMono
variable {N F C : Type} [DecidableEq N] [DecidableEq F]

/-- Specification: the `Analysis` map satisfies the inter-procedural data-flow inequalities in every context:
it covers the seeds and is closed under normal, call, call-to-return and return flows, where a return from the
empty context goes to all callers. -/
structure C24.Closed (P : MProb N F C) (A : An N C) : Prop where
  seed : ∀ n c, (n, c) ∈ P.seeds → Le P c (val P A n [])
  normal : ∀ n d x, P.isCall n = false → P.isExit n = false → d ∈ P.succs n →
    Le P (P.normalFlow n (val P A n x)) (val P A d x)
  call : ∀ n f s x, P.isCall n = true → f ∈ P.callees n → s ∈ P.starts f →
    Le P (P.callFlow n f (val P A n x)) (val P A s (CallString.push P.K x n))
  ctr : ∀ n d x, P.isCall n = true → d ∈ P.retSites n →
    Le P (P.ctrFlow n d (P.callees n) (val P A n x)) (val P A d x)
  ret : ∀ e n r x, P.isExit e = true → (x.getLast? = some n ∨ x = [] ∧ n ∈ P.callers (P.funOf e)) →
    r ∈ P.retSites n → Le P (P.returnFlow n (P.funOf e) e r (val P A e x)) (val P A r (CallString.pop x).1)

/-- Specification: union-like containers and monotone flows. -/
structure C24.Mono (P : MProb N F C) : Prop where
  assoc : ∀ a b c, P.merge (P.merge a b) c = P.merge a (P.merge b c)
  comm : ∀ a b, P.merge a b = P.merge b a
  idem : ∀ a, P.merge a a = a
  ins_merge : ∀ a b, P.ins a b = P.merge a b
  dflt_least : ∀ a, Le P P.dflt a
  normal : ∀ n a b, Le P a b → Le P (P.normalFlow n a) (P.normalFlow n b)
  call : ∀ n f a b, Le P a b → Le P (P.callFlow n f a) (P.callFlow n f b)
  ctr : ∀ n d fs a b, Le P a b → Le P (P.ctrFlow n d fs a) (P.ctrFlow n d fs b)
  ret : ∀ n f e r a b, Le P a b → Le P (P.returnFlow n f e r a) (P.returnFlow n f e r b)

instance (P : MProb N F C) [DecidableEq C] (a b : C) : Decidable (Le P a b) := by unfold Le; infer_instance

theorem C24.Mono.trans {P : MProb N F C} (hm : C24.Mono P) {a b c : C} (h1 : Le P a b) (h2 : Le P b c) :
    Le P a c := by
  unfold Le at *
  rw [← h2, ← hm.assoc, h1]

theorem C24.Mono.le_left {P : MProb N F C} (hm : C24.Mono P) (a b : C) : Le P a (P.merge a b) := by
  unfold Le; rw [← hm.assoc, hm.idem]

theorem C24.val_le_result {P : MProb N F C} (hm : C24.Mono P) (A : An N C) (n : N) (x : Ctx N) :
    Le P (val P A n x) (getResultsAt P A n) := by
  unfold val getResultsAt
  have acc : ∀ (l : AMap (Ctx N) C) (r : C), Le P r (l.foldl (fun r x => P.ins r x.2) r) := by
    intro l
    induction l with
    | nil => intro r; exact hm.idem r
    | cons y l ih =>
      intro r
      rw [List.foldl_cons]
      exact hm.trans (by rw [hm.ins_merge]; exact hm.le_left _ _) (ih _)
  have : ∀ (l : AMap (Ctx N) C) (r c : C), l.get x = some c → Le P c (l.foldl (fun r x => P.ins r x.2) r) := by
    intro l
    induction l with
    | nil => intro r c h; cases h
    | cons y l ih =>
      obtain ⟨y, d⟩ := y
      intro r c h
      simp only [AMap.get] at h
      rw [List.foldl_cons]
      split at h
      · cases h
        exact hm.trans (by rw [hm.ins_merge, hm.comm]; exact hm.le_left _ _) (acc l _)
      · exact ih _ _ h
  cases h : (row A n).get x with
  | none => exact hm.dflt_least _
  | some c => exact this _ _ _ h

/-- C24, partial: an `Analysis` map that satisfies the data-flow inequalities covers the facts of every
realizable path, for every call-string limit: limited call strings and returning to all callers from the
empty one lose nothing. Missing: that `solve()` ends with such a map, which is false
(`C24_return_not_propagated`, `C24_break_skips_callee`, `C24_recursion_as_call_to_return`,
`C24_two_seeds`), and that it ends at all (`C24_collision_livelock`). -/
theorem C24_partial (P : MProb N F C) (hm : C24.Mono P) (A : An N C) (hA : C24.Closed P A)
    (hcall : ∀ n f, f ∈ P.callees n → n ∈ P.callers f) (hstart : ∀ f s, s ∈ P.starts f → P.funOf s = f)
    (hfun : ∀ n d, d ∈ P.succs n → P.funOf d = P.funOf n)
    (hret : ∀ n r, r ∈ P.retSites n → P.funOf r = P.funOf n) (n : N) (st : List N) (c : C)
    (h : Reach P n st c) : Le P c (getResultsAt P A n) := by
  -- every value is covered in a context that is a suffix of the call stack; the callee at each level of the
  -- stack is one of the callees of the call site
  have key : ∀ n st c, Reach P n st c →
      (∃ x, x <:+ st ∧ Le P c (val P A n x)) ∧
      (∀ pre m post, st = pre ++ m :: post → P.funOf ((post ++ [n]).head (by simp)) ∈ P.callees m) := by
    intro n st c h
    induction h with
    | seed hs => exact ⟨⟨[], List.suffix_refl _, hA.seed _ _ hs⟩, fun pre m post h => by simp at h⟩
    | @normal n d st c _ hc he hd ih =>
      obtain ⟨⟨x, hx, hle⟩, h2⟩ := ih
      refine ⟨⟨x, hx, hm.trans (hm.normal n _ _ hle) (hA.normal n d x hc he hd)⟩, ?_⟩
      intro pre m post hst
      have := h2 pre m post hst
      cases post with
      | nil => simpa [hfun n d hd] using this
      | cons a post => simpa using this
    | @call n f s st c _ hc hf hs ih =>
      obtain ⟨⟨x, hx, hle⟩, h2⟩ := ih
      refine ⟨⟨_, CallString.push_suffix P.K hx n, hm.trans (hm.call n f _ _ hle) (hA.call n f s x hc hf hs)⟩, ?_⟩
      intro pre m post hst
      rcases List.eq_nil_or_concat post with rfl | ⟨post', a, rfl⟩
      · obtain ⟨_, h⟩ := List.append_inj' hst (by simp)
        cases h
        simpa [hstart f s hs] using hf
      · have h3 : st ++ [n] = (pre ++ m :: post') ++ [a] := by rw [hst]; simp
        obtain ⟨h4, h5⟩ := List.append_inj' h3 (by simp)
        cases h5
        have := h2 pre m post' h4
        cases post' with
        | nil => simpa using this
        | cons b post' => simpa using this
    | @ctr n d st c _ hc hd ih =>
      obtain ⟨⟨x, hx, hle⟩, h2⟩ := ih
      refine ⟨⟨x, hx, hm.trans (hm.ctr n d _ _ _ hle) (hA.ctr n d x hc hd)⟩, ?_⟩
      intro pre m post hst
      have := h2 pre m post hst
      cases post with
      | nil => simpa [hret n d hd] using this
      | cons a post => simpa using this
    | @ret e n r st c _ he hr ih =>
      obtain ⟨⟨x, hx, hle⟩, h2⟩ := ih
      have hf : P.funOf e ∈ P.callees n := by simpa using h2 st n [] rfl
      have hsuf : (CallString.pop x).1 <:+ st := by
        rw [CallString.pop_fst]
        have := CallString.suffix_dropLast hx
        simpa using this
      have hlast : x.getLast? = some n ∨ x = [] ∧ n ∈ P.callers (P.funOf e) := by
        obtain ⟨t, ht⟩ := hx
        rcases List.eq_nil_or_concat x with rfl | ⟨x', a, rfl⟩
        · exact .inr ⟨rfl, hcall n _ hf⟩
        · left
          have h3 : (t ++ x') ++ [a] = st ++ [n] := by rw [← ht]; simp
          obtain ⟨_, h5⟩ := List.append_inj' h3 (by simp)
          cases h5
          simp
      refine ⟨⟨_, hsuf, hm.trans (hm.ret n _ e r _ _ hle) (hA.ret e n r x he hlast hr)⟩, ?_⟩
      intro pre m post hst
      have := h2 pre m (post ++ [n]) (by rw [hst]; simp)
      cases post with
      | nil => simpa [hret n r hr] using this
      | cons a post => simpa using this
  obtain ⟨x, _, hle⟩ := (key n st c h).1
  exact hm.trans hle (C24.val_le_result hm A n x)

/-- `main: 5 → 0 (calls f) → 1 → 2` and `f: 3 → 4`. The one fact is passed into and back from `f`, and not along
the call-to-return edge. -/
def C24.retProg (K : Nat) : MProb (Fin 6) Bool Bool where
  K := K
  funOf n := n = 3 ∨ n = 4
  edgesOf f := if f then [(3, 4)] else [(5, 0), (0, 1), (1, 2)]
  isCall n := n = 0
  isExit n := n = 2 ∨ n = 4
  callees n := if n = 0 then [true] else []
  starts f := if f then [3] else [5]
  exits f := if f then [4] else [2]
  retSites n := if n = 0 then [1] else []
  callers f := if f then [0] else []
  succs n := if n = 5 then [0] else if n = 0 then [1] else if n = 1 then [2] else if n = 3 then [4] else []
  preds n := if n = 0 then [5] else if n = 1 then [0] else if n = 2 then [1] else if n = 4 then [3] else []
  branchTarget _ _ := false
  normalFlow _ c := c
  callFlow _ _ c := c
  returnFlow _ _ _ _ c := c
  ctrFlow _ _ _ _ := false
  merge a b := a || b
  equalTo a b := a == b
  allTop := false
  dflt := false
  ins a b := a || b
  seeds := [(5, true)]

theorem C24.retProg_mono (K : Nat) : C24.Mono (retProg K) := by
  constructor <;> simp [Le, retProg] <;> decide

/-- A map that meets the hypotheses of `C24_partial`: the one the solver should have found. -/
example : C24.Closed (C24.retProg 1) [(5, [([], true)]), (0, [([], true)]), (1, [([], true)]), (2, [([], true)]),
    (3, [([0], true)]), (4, [([0], true)])] := by
  constructor
  · simp [C24.retProg, Le, val, row, AMap.get]
  · intro n d x
    by_cases h0 : x = []
    · subst h0; revert n d; decide
    · by_cases h1 : x = [0]
      · subst h1; revert n d; decide
      · have e0 : ([] : List (Fin 6)) ≠ x := fun h => h0 h.symm
        have e1 : [(0 : Fin 6)] ≠ x := fun h => h1 h.symm
        intro _ _ _
        have hv : ∀ m, val (C24.retProg 1) [(5, [([], true)]), (0, [([], true)]), (1, [([], true)]),
            (2, [([], true)]), (3, [([0], true)]), (4, [([0], true)])] m x = false := by
          intro m
          have : m = 0 ∨ m = 1 ∨ m = 2 ∨ m = 3 ∨ m = 4 ∨ m = 5 := by revert m; decide
          rcases this with rfl | rfl | rfl | rfl | rfl | rfl <;>
            simp [val, row, AMap.get, e0, e1, C24.retProg]
        rw [hv, hv]; rfl
  · intro n f s x hc
    have : n = 0 := by revert n; decide
    subst this
    intro hf hs
    have hf' : f = true := by clear hs; revert f; decide
    subst hf'
    have hs' : s = 3 := by revert s; decide
    subst hs'
    by_cases h0 : x = []
    · subst h0; decide
    · have e0 : ([] : List (Fin 6)) ≠ x := fun h => h0 h.symm
      simp [val, row, AMap.get, e0, C24.retProg, Le]
  · intro n d x _ _
    simp [Le, C24.retProg]
  · intro e n r x he hx hr
    by_cases h0 : x = []
    · subst h0
      revert e n r
      decide
    · by_cases h1 : x = [0]
      · subst h1
        revert e n r
        decide
      · have e0 : ([] : List (Fin 6)) ≠ x := fun h => h0 h.symm
        have e1 : [(0 : Fin 6)] ≠ x := fun h => h1 h.symm
        have : e = 2 ∨ e = 4 := by clear hx; revert e; decide
        rcases this with rfl | rfl <;>
          simp [val, row, AMap.get, e0, e1, C24.retProg, Le]

theorem C24.of_any {P : MProb N F C} [DecidableEq C] {k : Nat} {n : N} {c : C}
    (h : (solve P k).any (fun A => decide (getResultsAt P A n = c)) = true) :
    ∃ A, solve P k = some A ∧ getResultsAt P A n = c := by
  cases hs : solve P k with
  | none => rw [hs] at h; cases h
  | some A => rw [hs] at h; exact ⟨A, rfl, of_decide_eq_true h⟩

/-- C24 is false: `processExit` pushes no edges (the call is commented out), so a fact that returns from a
callee is recorded at the return site but not propagated further. Here statement 2 is reached by the fact,
and `solve()` returns without it, with every limit 1 to 3. -/
theorem C24_return_not_propagated :
    C24.Mono (C24.retProg 2) ∧ Reach (C24.retProg 2) 2 [] true ∧
    (∃ A, solve (C24.retProg 1) 40 = some A ∧ getResultsAt (C24.retProg 1) A 2 = false) ∧
    (∃ A, solve (C24.retProg 2) 40 = some A ∧ getResultsAt (C24.retProg 2) A 2 = false) ∧
    (∃ A, solve (C24.retProg 3) 40 = some A ∧ getResultsAt (C24.retProg 3) A 2 = false) ∧
    ¬ Le (C24.retProg 2) true false := by
  refine ⟨C24.retProg_mono 2, ?_, ?_, ?_, ?_, by decide⟩
  · have h5 : Reach (C24.retProg 2) 5 [] true := .seed (by simp [C24.retProg])
    have h0 : Reach (C24.retProg 2) 0 [] true := .normal h5 (by decide) (by decide) (by decide)
    have h3 : Reach (C24.retProg 2) 3 ([] ++ [0]) true := .call (f := true) h0 (by decide) (by decide) (by decide)
    have h4 : Reach (C24.retProg 2) 4 ([] ++ [0]) true := .normal h3 (by decide) (by decide) (by decide)
    have h1 : Reach (C24.retProg 2) 1 [] true := .ret h4 (by decide) (by decide)
    exact .normal h1 (by decide) (by decide) (by decide)
  · exact C24.of_any (by decide +kernel)
  · exact C24.of_any (by decide +kernel)
  · exact C24.of_any (by decide +kernel)

/-- `main: 0 → 1 (calls f) → 2`, `f: 3 (calls h) → 4`, `h: 5`; the fact is passed down to `h`. -/
def C24.chain : MProb (Fin 6) (Fin 3) Bool where
  K := 1
  funOf n := if n ≤ 2 then 0 else if n ≤ 4 then 1 else 2
  edgesOf f := if f = 0 then [(0, 1), (1, 2)] else if f = 1 then [(3, 4)] else []
  isCall n := n = 1 ∨ n = 3
  isExit n := n = 2 ∨ n = 4 ∨ n = 5
  callees n := if n = 1 then [1] else if n = 3 then [2] else []
  starts f := if f = 0 then [0] else if f = 1 then [3] else [5]
  exits f :=  if f = 0 then [2] else if f = 1 then [4] else [5]
  retSites n := if n = 1 then [2] else if n = 3 then [4] else []
  callers f := if f = 1 then [1] else if f = 2 then [3] else []
  succs n := if n = 0 then [1] else if n = 1 then [2] else if n = 3 then [4] else []
  preds n := if n = 1 then [0] else if n = 2 then [1] else if n = 4 then [3] else []
  branchTarget _ _ := false
  normalFlow _ c := c
  callFlow _ _ c := c
  returnFlow _ _ _ _ _ := false
  ctrFlow _ _ _ _ := false
  merge a b := a || b
  equalTo a b := a == b
  allTop := false
  dflt := false
  ins a b := a || b
  seeds := [(0, true)]

/-- The `Analysis` map from which the run on `chain` does not move. -/
def C24.chainAn : An (Fin 6) Bool := [(0, [([], true)]), (1, [([], true)]), (2, [([], false)]),
  (3, [([], false), ([1], true)]), (4, [([], false), ([1], false)]), (5, [([3], true)])]

theorem C24.chain_step (wl : List (Fin 6 × Fin 6)) (e : Fin 6 × Fin 6) (he : e = (3, 5) ∨ e = (5, 4)) :
    step chain e.1 e.2 ⟨wl, chainAn, [2, 1], false⟩ =
      ⟨wl ++ (if e = (3, 5) then [(3, 5), (5, 4)] else []) ++ (if e = (3, 5) then [(3, 5), (5, 4)] else []),
        chainAn, [2, 1], false⟩ := by
  rcases he with rfl | rfl
  · rfl
  · rw [if_neg (by decide), List.append_nil, List.append_nil]
    rfl

theorem C24.chain_livelock (k : Nat) (wl : List (Fin 6 × Fin 6)) (h1 : ∀ e ∈ wl, e = (3, 5) ∨ e = (5, 4))
    (h2 : (3, 5) ∈ wl) : loop chain k ⟨wl, chainAn, [2, 1], false⟩ = none := by
  induction k generalizing wl with
  | zero =>
    cases wl with
    | nil => cases h2
    | cons e wl => rfl
  | succ k ih =>
    cases wl with
    | nil => cases h2
    | cons e wl =>
      simp only [loop]
      have he := h1 e (by simp)
      rw [chain_step wl e he]
      apply ih
      · intro e' he'
        rcases he with rfl | rfl
        · simp only [if_true, List.mem_append, List.mem_cons, List.not_mem_nil, or_false] at he'
          rcases he' with (h | h) | h
          · exact h1 e' (List.mem_cons_of_mem _ h)
          · exact h
          · exact h
        · have hne : ((5 : Fin 6), (4 : Fin 6)) ≠ (3, 5) := by decide
          simp only [hne, if_false, List.append_nil] at he'
          exact h1 e' (List.mem_cons_of_mem _ he')
      · rcases he with rfl | rfl
        · simp
        · rcases List.mem_cons.1 h2 with h | h
          · exact absurd h (by decide)
          · simp [h]

/-- C24, contexts that coincide under the limit: with `K = 1` and two nested calls `solve()` does not return.
The contexts `[]` and `[1]` at statement 3 are both extended to `[3]`; each overwrites the facts of the other
at statement 5 and pushes the edge again. -/
theorem C24_collision_livelock : C24.Mono C24.chain ∧ ∀ k, solve C24.chain k = none := by
  refine ⟨by constructor <;> simp [Le, C24.chain] <;> decide, ?_⟩
  intro k
  have : loop C24.chain k (initSt C24.chain) = none := by
    match k with
    | 0 | 1 | 2 | 3 | 4 | 5 | 6 | 7 | 8 | 9 | 10 | 11 | 12 => decide +kernel
    | k + 13 =>
      exact C24.chain_livelock k [(3, 5), (5, 4), (3, 5), (5, 4), (3, 5), (5, 4)] (by decide) (by decide)
  unfold solve
  rw [this]; rfl

/-- `main: 0 → 1 (calls f) → 2 (calls f or g) → 3`, `f: 4`, `g: 5`; the call flow into `g` generates the fact. -/
def C24.twoCallees : MProb (Fin 6) (Fin 3) Bool where
  K := 2
  funOf n := if n ≤ 3 then 0 else if n = 4 then 1 else 2
  edgesOf f := if f = 0 then [(0, 1), (1, 2), (2, 3)] else []
  isCall n := n = 1 ∨ n = 2
  isExit n := 3 ≤ n
  callees n := if n = 1 then [1] else if n = 2 then [1, 2] else []
  starts f := if f = 0 then [0] else if f = 1 then [4] else [5]
  exits f :=  if f = 0 then [3] else if f = 1 then [4] else [5]
  retSites n := if n = 1 then [2] else if n = 2 then [3] else []
  callers f := if f = 1 then [1, 2] else if f = 2 then [2] else []
  succs n := if n = 0 then [1] else if n = 1 then [2] else if n = 2 then [3] else []
  preds n := if n = 1 then [0] else if n = 2 then [1] else if n = 3 then [2] else []
  branchTarget _ _ := false
  normalFlow _ c := c
  callFlow _ f c := c || f = 2
  returnFlow _ _ _ _ _ := false
  ctrFlow _ _ _ c := c
  merge a b := a || b
  equalTo a b := a == b
  allTop := false
  dflt := false
  ins a b := a || b
  seeds := [(0, false)]

/-- C24 is false: `addCalleesToWorklist` leaves the loop over the callees at the first one already known, so
the callee `g` after it is never entered. -/
theorem C24_break_skips_callee :
    C24.Mono C24.twoCallees ∧ Reach C24.twoCallees 5 [2] true ∧
    ∃ A, solve C24.twoCallees 40 = some A ∧ getResultsAt C24.twoCallees A 5 = false := by
  refine ⟨by constructor <;> simp [Le, C24.twoCallees] <;> decide, ?_, C24.of_any (by decide +kernel)⟩
  have h0 : Reach C24.twoCallees 0 [] false := .seed (by simp [C24.twoCallees])
  have h1 : Reach C24.twoCallees 1 [] false := .normal h0 (by decide) (by decide) (by decide)
  have h2 : Reach C24.twoCallees 2 [] false := .ctr h1 (by decide) (by decide)
  exact .call (f := 2) h2 (by decide) (by decide) (by decide)

/-- `main: 0 → 1 (calls main) → 2`; the call flow generates the fact. -/
def C24.recProg : MProb (Fin 3) Unit Bool where
  K := 2
  funOf _ := ()
  edgesOf _ := [(0, 1), (1, 2)]
  isCall n := n = 1
  isExit n := n = 2
  callees n := if n = 1 then [()] else []
  starts _ := [0]
  exits _ := [2]
  retSites n := if n = 1 then [2] else []
  callers _ := [1]
  succs n := if n = 0 then [1] else if n = 1 then [2] else []
  preds n := if n = 1 then [0] else if n = 2 then [1] else []
  branchTarget _ _ := false
  normalFlow _ c := c
  callFlow _ _ _ := true
  returnFlow _ _ _ _ _ := false
  ctrFlow _ _ _ c := c
  merge a b := a || b
  equalTo a b := a == b
  allTop := false
  dflt := false
  ins a b := a || b
  seeds := [(0, false)]

/-- C24 is false for direct recursion: a call edge within one function passes the test `isIntraEdge`, so
`processCall` applies the call-to-return flow instead of the call flow. -/
theorem C24_recursion_as_call_to_return :
    C24.Mono C24.recProg ∧ Reach C24.recProg 0 [1] true ∧
    ∃ A, solve C24.recProg 40 = some A ∧ getResultsAt C24.recProg A 0 = false := by
  refine ⟨by constructor <;> simp [Le, C24.recProg] <;> decide, ?_, C24.of_any (by decide +kernel)⟩
  have h0 : Reach C24.recProg 0 [] false := .seed (by simp [C24.recProg])
  have h1 : Reach C24.recProg 1 [] false := .normal h0 (by decide) (by decide) (by decide)
  exact .call (f := ()) h1 (by decide) (by decide) (by decide)

/-- `main: 0 → 1 → 2` with both 0 and 1 seeded. -/
def C24.seedProg : MProb (Fin 3) Unit Bool :=
  { C24.recProg with
    isCall := fun _ => false
    callees := fun _ => []
    retSites := fun _ => []
    callers := fun _ => []
    seeds := [(0, true), (1, false)] }

/-- C24 is false with two seeded statements in one function: `initialize()` resets the statements of the
function for each seed, so the facts of the first seed are lost. -/
theorem C24_two_seeds :
    C24.Mono C24.seedProg ∧ Reach C24.seedProg 0 [] true ∧
    ∃ A, solve C24.seedProg 40 = some A ∧ getResultsAt C24.seedProg A 0 = false :=
  ⟨by constructor <;> simp [Le, C24.seedProg, C24.recProg] <;> decide,
    .seed (by simp [C24.seedProg]), C24.of_any (by decide +kernel)⟩

end C24

/-! ## C25: `CallStringCTX` -/

section C25
open CallString
variable {N : Type}

/-- C25, partial: for `K ≥ 1` and every history of calls and returns, the context is a suffix of the call
stack of length at most `K`; it is the whole stack as long as the stack never grew beyond `K`; and after
any history followed by calls `ns` it consists of the last `K` call sites of the earlier context followed by
`ns`. Missing: "equals the last `K` pushed and not popped call sites", which is false after returning
(`C25_forgets`), and `K = 0` (`C25_zero_unbounded`). -/
theorem C25_partial (K : Nat) (hK : 0 < K) (os : List (Op N)) (t : List N) (ht : stack os [] = some t) :
    run K os [] <:+ t ∧ (run K os []).length ≤ K ∧ (depth os [] ≤ K → run K os [] = t) ∧
    ∀ ns : List N, run K (os ++ ns.map .push) [] =
      (run K os [] ++ ns).drop ((run K os [] ++ ns).length - K) := by
  have hlen := run_length hK os [] (by simp : ([] : List N).length ≤ K)
  refine ⟨run_suffix K os [] [] (List.suffix_refl _) t ht, hlen,
    fun hd => run_exact hK os [] t ht hd, ?_⟩
  intro ns
  rw [run_append, run_pushes hK ns _ hlen]

/-- C25, most recent calls: after `K` or more calls in a row the context is exactly the last `K` of them,
whatever happened before. -/
theorem C25_recent (K : Nat) (hK : 0 < K) (os : List (Op N)) (ns : List N) (hn : K ≤ ns.length) :
    run K (os ++ ns.map .push) [] = ns.drop (ns.length - K) := by
  have hlen := run_length hK os [] (by simp : ([] : List N).length ≤ K)
  rw [run_append, run_pushes hK ns _ hlen, List.length_append, List.drop_append]
  have e1 : (run K os []).length + ns.length - K - (run K os []).length = ns.length - K := by omega
  rw [e1, List.drop_eq_nil_of_le (by omega), List.nil_append]

/-- C25, `pop_back` undoes `push_back` unless the oldest call site was dropped, and returns the pushed call
site in any case. -/
theorem C25_pop_push (K : Nat) (hK : 0 < K) (cs : List N) (n : N) :
    (pop (push K cs n)).2 = some n ∧ (cs.length < K → (pop (push K cs n)).1 = cs) := by
  constructor
  · have : (push K cs n).getLast? = some n := by
      unfold push
      split <;> simp
    unfold pop
    rw [this]
  · intro h
    rw [pop_fst]
    unfold push
    rw [limit_pos hK, if_neg (by omega)]
    simp

/-- C25, equality and hash depend on the sequence of call sites only. -/
theorem C25_equality [DecidableEq N] (hashU : Nat → UInt64) (hashD : List N → UInt64) (K : Nat) (a b : List N) :
    (isEqual a b = true ↔ a = b) ∧ (isEqual a b = true → hash hashU hashD K a = hash hashU hashD K b) := by
  have h : isEqual a b = true ↔ a = b := by unfold isEqual; simp
  exact ⟨h, fun e => by rw [h.1 e]⟩

/-- C25, the constructor accepts exactly the sequences of at most `K` call sites. -/
theorem C25_init (K : Nat) (l : List N) :
    (l.length ≤ K → ofList K l = some l) ∧ (K < l.length → ofList K l = none) := by
  unfold ofList
  constructor
  · intro h; rw [if_neg (by omega)]
  · intro h; rw [if_pos h]

/-- C25 is false after a return: with `K = 1`, after calling from 1, then from 2, then returning, the stack is
`[1]` but the context is empty. -/
theorem C25_forgets :
    stack [.push 1, .push 2, .pop] [] = some [1] ∧ run 1 [.push 1, .push 2, .pop] [] = ([] : List Nat) := by
  decide

/-- C25 is false for `K = 0`: `KLimit - 1` wraps around, so nothing is dropped and the context holds every
call site, up to `2^32` of them. -/
theorem C25_zero_unbounded (ns : List N) (h : ns.length ≤ 4294967296) : run 0 (ns.map .push) [] = ns := by
  have : ∀ (ns cs : List N), cs.length + ns.length ≤ 4294967296 → run 0 (ns.map .push) cs = cs ++ ns := by
    intro ns
    induction ns with
    | nil => intro cs _; simp [run]
    | cons n ns ih =>
      intro cs h
      simp only [List.length_cons] at h
      simp only [List.map_cons, run]
      have hp : push 0 cs n = cs ++ [n] := by
        unfold push
        rw [limit_zero, if_neg (by omega)]
      rw [hp, ih _ (by simp; omega)]
      simp
  simpa using this ns [] (by simpa using h)

/-- A history with calls and returns that meets the hypotheses, beyond the limit. -/
example : stack [.push 1, .push 2, .pop, .push 3, .push 4] [] = some [1, 3, 4] ∧
    run 2 [.push 1, .push 2, .pop, .push 3, .push 4] [] = [3, 4] := by decide

example : run 2 ([.push 9, .pop, .push 8] ++ [1, 2, 3].map .push) [] = [2, 3] :=
  C25_recent 2 (by decide) [.push 9, .pop, .push 8] [1, 2, 3] (by decide)

example : run 0 ([1, 2, 3].map .push) [] = [1, 2, 3] := C25_zero_unbounded _ (by decide)

end C25
end Phasar
