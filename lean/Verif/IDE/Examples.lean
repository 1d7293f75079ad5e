import Verif.IDE.Ifds
import Verif.IDE.Api
/-!
# Concrete problems

Small problems used as non-trivial instances beside the theorems, and as witnesses where a property
does not hold.  Nothing here models code in /repo, except that the problems are inputs of the solver
model and `solveWith` runs it under a chosen processing order.
-/
set_option linter.unusedSectionVars false
namespace Phasar.IDE
open Phasar JoinLat

/-! ## A chosen processing order -/

section
variable {N D F L E : Type} [DecidableEq N] [DecidableEq D] [JoinLat L] [DecidableEq L]

/-- Phase I under an explicit schedule: each entry is the index of the worklist element to take.
Order abstraction of `IDESolver.h:1758-1768`. -/
def runWith (P : Problem N D F L E) : List Nat → St N D E → Option (St N D E)
  | [], s => some s
  | i :: is, s =>
    match s.wl[i]? with
    | none => none
    | some x => runWith P is (propagate P { s with wl := s.wl.take i ++ s.wl.drop (i + 1) } x.1 x.2)

/-- First the given schedule, then the code's own order, then Phase II (`IDESolver.h:1726-1791`). -/
def solveWith (P : Problem N D F L E) (sched : List Nat) (fuel : Nat) :
    Option (St N D E × VS N D L) := do
  let s0 ← runWith P sched (init P)
  let s ← runPhase1 P fuel s0
  let v ← runPhase2 P s fuel (submitInitialValues P s)
  return (s, valueComputationTask P s.jump v)

theorem runWith_reach {P : Problem N D F L E} (sched : List Nat) : ∀ {s t : St N D E}, Reach P s →
    runWith P sched s = some t → Reach P t := by
  induction sched with
  | nil => intro s t hs h; cases h; exact hs
  | cons i is ih =>
    intro s t hs h
    simp only [runWith] at h
    cases hx : s.wl[i]? with
    | none => simp [hx] at h
    | some x =>
      simp only [hx] at h
      refine ih (.step hs (.take s (s.wl.take i) (s.wl.drop (i + 1)) x ?_)) h
      obtain ⟨hlt, rfl⟩ := List.getElem?_eq_some_iff.1 hx
      rw [← List.drop_eq_getElem_cons hlt, List.take_append_drop]

theorem solveWith_sound {P : Problem N D F L E} {sched : List Nat} {k : Nat} {s : St N D E}
    {v : VS N D L} (h : solveWith P sched k = some (s, v)) : Solved P s v := by
  unfold solveWith at h
  cases h0 : runWith P sched (init P) with
  | none => simp [h0] at h
  | some s0 =>
    cases h1 : runPhase1 P k s0 with
    | none => simp [h0, h1] at h
    | some s' =>
      cases h2 : runPhase2 P s' k (submitInitialValues P s') with
      | none => simp [h0, h1, h2] at h
      | some v' =>
        simp only [h0, h1, h2, Option.bind_eq_bind, Option.bind_some, Option.pure_def,
          Option.some.injEq, Prod.mk.injEq] at h
        obtain ⟨rfl, rfl⟩ := h
        obtain ⟨h3, h4⟩ := runPhase1_sound h1 (runWith_reach sched .init h0)
        obtain ⟨h5, h6⟩ := runPhase2_sound h2 .init
        exact .intro h3 h4 h5 h6

end

theorem exists_of_any {A : Type} {o : Option A} {f : A → Bool} (h : o.any f = true) :
    ∃ x, o = some x ∧ f x = true := by
  cases o with
  | none => cases h
  | some x => exact ⟨x, rfl, h⟩

/-! ## A lattice with exact, distributive edge functions -/

/-- Three-element chain: no information, clean, tagged. -/
inductive Lab where
  | none | clean | tagged
deriving DecidableEq, Repr

/-- Height of an element. -/
def Lab.lvl : Lab → Nat
  | .none => 0
  | .clean => 1
  | .tagged => 2

/-- Maximum. -/
def Lab.max (a b : Lab) : Lab := if a.lvl ≤ b.lvl then b else a

instance : JoinLat Lab where
  join := Lab.max
  top := .none
  bottom := .tagged
  join_assoc := by intro a b c; cases a <;> cases b <;> cases c <;> rfl
  join_comm := by intro a b; cases a <;> cases b <;> rfl
  join_idem := by intro a; cases a <;> rfl
  top_join := by intro a; cases a <;> rfl
  bottom_join := by intro a; cases a <;> rfl

/-- Edge functions: forget the tag, keep it, set it. -/
inductive GK where
  | allTop | kill | id | gen
deriving DecidableEq, Repr

/-- Application. -/
def GK.ap : GK → Lab → Lab
  | .allTop, _ => .none
  | _, .none => .none
  | .kill, _ => .clean
  | .id, x => x
  | .gen, _ => .tagged

/-- Composition, first `f` then `g`. -/
def GK.comp (f g : GK) : GK :=
  match g with
  | .id => f
  | .allTop => .allTop
  | g => if f = .allTop then .allTop else g

/-- Join. -/
def GK.join : GK → GK → GK
  | .allTop, g => g
  | f, .allTop => f
  | .kill, g => g
  | f, .kill => f
  | .gen, _ => .gen
  | _, .gen => .gen
  | .id, .id => .id

/-- The algebra. -/
def gkAlg : EdgeAlg Lab GK where
  ap := GK.ap
  extend := GK.comp
  combine := GK.join
  eqE := fun f g => decide (f = g)
  idE := .id
  allTop := .allTop

/-- Functions other than all-top. -/
def GK.Live (f : GK) : Prop := f ≠ .allTop

instance (f : GK) : Decidable f.Live := inferInstanceAs (Decidable (f ≠ .allTop))

instance {L : Type} [JoinLat L] [DecidableEq L] (a b : L) : Decidable (a ⊑ b) :=
  inferInstanceAs (Decidable (JoinLat.join a b = b))

theorem gkAlg_sound : gkAlg.Sound GK.Live where
  ok_id := by decide
  ok_extend := by intro f g; cases f <;> cases g <;> decide
  ok_combine := by intro f g; cases f <;> cases g <;> decide
  ok_first := by intro f; cases f <;> decide
  not_top := by intro f; cases f <;> decide
  eq_sound := by intro f g _ _ h x; simp only [gkAlg, decide_eq_true_eq] at h; rw [h]
  ap_id := by intro x; cases x <;> decide
  mono := by intro f _ x y _; cases f <;> cases x <;> cases y <;> decide
  extend_ge := by intro f g _ _ x; cases f <;> cases g <;> cases x <;> decide
  combine_ge_left := by intro f g _ _ x; cases f <;> cases g <;> cases x <;> decide
  combine_ge_right := by intro f g _ _ x; cases f <;> cases g <;> cases x <;> decide
  first_ge := by intro f _ x; cases f <;> cases x <;> decide

theorem gkAlg_exact : gkAlg.Exact GK.Live where
  ap_id := by intro x; cases x <;> decide
  extend_eq := by intro f g _ _ x; cases f <;> cases g <;> cases x <;> decide
  combine_eq := by intro f g _ _ x; cases f <;> cases g <;> cases x <;> decide
  first_eq := by intro f _ x; cases f <;> cases x <;> decide
  distrib := by intro f _ x y; cases f <;> cases x <;> cases y <;> decide

/-- Rank of an edge function: number of further changes possible. -/
def GK.rank : GK → Nat
  | .allTop => 3
  | .kill => 2
  | .id => 1
  | .gen => 0

theorem gkAlg_finite : gkAlg.FiniteHeight GK.Live GK.rank 2 where
  first := by intro f; cases f <;> decide
  next := by intro e f; cases e <;> cases f <;> decide

theorem lab_finite : FiniteHeightL Lab (fun x => 2 - x.lvl) := by
  intro a b; cases a <;> cases b <;> decide

/-! ## A recursive two-function program

```
main: 0: x = source()   1: res = foo(x)   2: ...   3: return
foo(p): 4: if (...) { 5: foo(p) }   6: return p
``` -/

/-- Control flow of the program. -/
def exICFG : ICFG (Fin 7) (Fin 2) where
  succs := fun n => match n with | 0 => [1] | 1 => [2] | 2 => [3] | 4 => [5, 6] | 5 => [6] | _ => []
  isCall := fun n => n == 1 || n == 5
  isExit := fun n => n == 3 || n == 6
  isStart := fun n => n == 0 || n == 4
  funOf := fun n => if n.val < 4 then 0 else 1
  starts := fun f => if f = 0 then [0] else [4]
  callees := fun n => if n = 1 ∨ n = 5 then [1] else []
  retSites := fun n => match n with | 1 => [2] | 5 => [6] | _ => []
  callers := fun f => if f = 1 then [1, 5] else []
  callsIn := fun f => if f = 0 then [1] else [5]
  nonCallStart := [2, 3, 6]

theorem exICFG_wfv : exICFG.WFV where
  succs_fun := by decide +kernel
  ret_fun := by decide +kernel
  start_fun := by decide +kernel
  start_no_pred := by decide +kernel
  isStart_iff := by decide +kernel
  callsIn_iff := by decide +kernel
  ncs_iff := by decide +kernel

theorem exICFG_unique : exICFG.UniqueStart := by
  unfold ICFG.UniqueStart; decide +kernel

/-- Facts: 0 zero, 1 `x`, 2 `p`, 3 `res`. Statement 0 generates `x` clean; the branch in `foo` into the
recursive call tags `p`. -/
def exP : Problem (Fin 7) (Fin 4) (Fin 2) Lab GK where
  icf := exICFG
  alg := gkAlg
  normalFlow := fun n _ d => if n = 0 ∧ d = 0 then [0, 1] else [d]
  callFlow := fun n _ d =>
    if n = 1 then (if d = 0 then [0] else if d = 1 then [2] else [])
    else (if d = 0 ∨ d = 2 then [d] else [])
  retFlow := fun c _ _ _ d =>
    if c = 1 then (if d = 0 then [0] else if d = 2 then [3] else [])
    else (if d = 0 ∨ d = 2 then [d] else [])
  ctrFlow := fun n _ d => if n = 1 then (if d = 0 ∨ d = 1 then [d] else []) else (if d = 0 then [d] else [])
  summaryFlow := fun _ _ => none
  normalEdge := fun n d n' d' =>
    if n = 0 ∧ d = 0 ∧ d' = 1 then .kill else if n = 4 ∧ d = 2 ∧ n' = 5 then .gen else .id
  callEdge := fun _ _ _ _ => .id
  retEdge := fun _ _ _ _ _ _ => .id
  ctrEdge := fun _ _ _ _ => .id
  sumEdge := fun _ _ _ _ => .id
  zero := 0
  seeds := [(0, [(0, .tagged)])]
  followReturnsPastSeeds := false

theorem exP_ok : exP.OkEdges GK.Live where
  normal := by
    intro n d n' d' _ _
    simp only [exP, GK.Live]
    split
    · decide
    · split <;> decide
  call := by intro n d g d' _ _; simp only [exP, GK.Live]; decide
  ret := by intro c g e d r d' _ _; simp only [exP, GK.Live]; decide
  ctr := by intro n d r d' _ _; simp only [exP, GK.Live]; decide
  sum := by intro n d g s r d' _ _ _; simp only [exP, GK.Live]; decide

theorem exP_noTop : exP.NoTop GK.Live where
  seed := by
    rintro n d v ⟨facts, hf, h⟩
    simp only [exP, List.mem_singleton, Prod.mk.injEq] at hf
    obtain ⟨rfl, rfl⟩ := hf
    rcases h with h | ⟨_, rfl, _⟩
    · simp only [List.mem_singleton, Prod.mk.injEq] at h
      rw [h.2]; decide
    · decide
  ap := by intro f; cases f <;> intro _ x <;> cases x <;> revert ‹GK.Live _› <;> decide

theorem exP_seeds : SeedsAtStart exP := by
  intro n facts h
  simp only [exP, List.mem_singleton, Prod.mk.injEq] at h
  rw [h.1]; decide

theorem exP_disjoint : SummariesDisjoint exP := by
  intro n g sm _ h; simp [exP] at h

/-- The same program as an IFDS problem. -/
def exI : Problem (Fin 7) (Fin 4) (Fin 2) BinaryDomain (EF Empty BinaryDomain) where
  icf := exICFG
  alg := ifdsAlg
  normalFlow := exP.normalFlow
  callFlow := exP.callFlow
  retFlow := exP.retFlow
  ctrFlow := exP.ctrFlow
  summaryFlow := exP.summaryFlow
  normalEdge := fun _ _ _ _ => .id
  callEdge := fun _ _ _ _ => .id
  retEdge := fun _ _ _ _ _ _ => .id
  ctrEdge := fun _ _ _ _ => .id
  sumEdge := fun _ _ _ _ => .id
  zero := 0
  seeds := [(0, [(0, .BOTTOM)])]
  followReturnsPastSeeds := false

theorem exI_ifds : IsIFDS exI where
  alg := rfl
  normal := fun _ _ _ _ => rfl
  call := fun _ _ _ _ => rfl
  ret := fun _ _ _ _ _ _ => rfl
  ctr := fun _ _ _ _ => rfl
  sum := fun _ _ _ _ => rfl
  seeds := by
    intro n facts h d v hd
    simp only [exI, List.mem_singleton, Prod.mk.injEq] at h
    rw [h.2] at hd
    simp only [List.mem_singleton, Prod.mk.injEq] at hd
    exact hd.2

theorem exI_seeds : SeedsAtStart exI := by
  intro n facts h
  simp only [exI, List.mem_singleton, Prod.mk.injEq] at h
  rw [h.1]; decide

theorem exI_disjoint : SummariesDisjoint exI := by
  intro n g sm _ h; simp [exI, exP] at h


/-- The IFDS example with flow functions that drop the zero fact everywhere. -/
def exZ : Problem (Fin 7) (Fin 4) (Fin 2) BinaryDomain (EF Empty BinaryDomain) :=
  { exI with
    normalFlow := fun n n' d => (exP.normalFlow n n' d).filter (fun d => d != 0)
    callFlow := fun n g d => (exP.callFlow n g d).filter (fun d => d != 0)
    retFlow := fun _ _ _ _ _ => []
    ctrFlow := fun _ _ _ => [] }

theorem exZ_ifds : IsIFDS (autoZero exZ) where
  alg := rfl
  normal := fun _ _ _ _ => rfl
  call := fun _ _ _ _ => rfl
  ret := fun _ _ _ _ _ _ => rfl
  ctr := fun _ _ _ _ => rfl
  sum := fun _ _ _ _ => rfl
  seeds := exI_ifds.seeds

/-! ## Unbalanced returns

```
main1: 0: ...   1: foo(...)   2: return
foo:   3: ...   4: return
main2: 5: foo(...)   6: return
```
`foo` and `main1` are seeded, `main2` is not. -/

/-- Control flow. -/
def unbICFG : ICFG (Fin 7) (Fin 3) where
  succs := fun n => match n with | 0 => [1] | 1 => [2] | 3 => [4] | 5 => [6] | _ => []
  isCall := fun n => n == 1 || n == 5
  isExit := fun n => n == 2 || n == 4 || n == 6
  isStart := fun n => n == 0 || n == 3 || n == 5
  funOf := fun n => if n.val < 3 then 0 else if n.val < 5 then 1 else 2
  starts := fun f => match f with | 0 => [0] | 1 => [3] | 2 => [5]
  callees := fun n => if n = 1 ∨ n = 5 then [1] else []
  retSites := fun n => match n with | 1 => [2] | 5 => [6] | _ => []
  callers := fun f => if f = 1 then [1, 5] else []
  callsIn := fun f => match f with | 0 => [1] | 1 => [] | 2 => [5]
  nonCallStart := [2, 4, 6]

theorem unbICFG_wfv : unbICFG.WFV where
  succs_fun := by decide +kernel
  ret_fun := by decide +kernel
  start_fun := by decide +kernel
  start_no_pred := by decide +kernel
  isStart_iff := by decide +kernel
  callsIn_iff := by decide +kernel
  ncs_iff := by decide +kernel

/-- `main1` passes fact 1 to `foo` when `pass` is set. Seeds: fact 1 in `foo`, zero in `main1` when
`withMain` is set. -/
def unbP (withMain : Bool) : Problem (Fin 7) (Fin 2) (Fin 3) BinaryDomain (EF Empty BinaryDomain) where
  icf := unbICFG
  alg := ifdsAlg
  normalFlow := fun _ _ d => [d]
  callFlow := fun _ _ d => if d = 0 then [0, 1] else [d]
  retFlow := fun _ _ _ _ d => [d]
  ctrFlow := fun _ _ d => [d]
  summaryFlow := fun _ _ => none
  normalEdge := fun _ _ _ _ => .id
  callEdge := fun _ _ _ _ => .id
  retEdge := fun _ _ _ _ _ _ => .id
  ctrEdge := fun _ _ _ _ => .id
  sumEdge := fun _ _ _ _ => .id
  zero := 0
  seeds := (3, [(1, .BOTTOM)]) :: if withMain then [(0, [])] else []
  followReturnsPastSeeds := true

theorem unbP_ifds (b : Bool) : IsIFDS (unbP b) where
  alg := rfl
  normal := fun _ _ _ _ => rfl
  call := fun _ _ _ _ => rfl
  ret := fun _ _ _ _ _ _ => rfl
  ctr := fun _ _ _ _ => rfl
  sum := fun _ _ _ _ => rfl
  seeds := by
    intro n facts h d v hd
    cases b <;> simp [unbP] at h
    · rw [h.2] at hd; simp at hd; exact hd.2
    · rcases h with h | h <;> rw [h.2] at hd <;> simp at hd
      exact hd.2

/-! ## Summaries -/

/-- The recursive example where every call of `foo` has a summary. -/
def sumP : Problem (Fin 7) (Fin 4) (Fin 2) Lab GK :=
  { exP with summaryFlow := fun _ g => if g = 1 then some (fun d => if d = 1 then [3] else [d]) else none }

/-- The same, with call flow functions that do not enter `foo`. -/
def sumP' : Problem (Fin 7) (Fin 4) (Fin 2) Lab GK :=
  { sumP with callFlow := fun _ _ _ => [] }

/-! ## Seeds in the middle of a function -/

/-- Straight-line function `0 → 1 → 2` with a seed at statement 1. -/
def midP : Problem (Fin 3) (Fin 2) (Fin 1) Lab GK where
  icf :=
    { succs := fun n => match n with | 0 => [1] | 1 => [2] | _ => []
      isCall := fun _ => false
      isExit := fun n => n == 2
      isStart := fun n => n == 0
      funOf := fun _ => 0
      starts := fun _ => [0]
      callees := fun _ => []
      retSites := fun _ => []
      callers := fun _ => []
      callsIn := fun _ => []
      nonCallStart := [1, 2] }
  alg := gkAlg
  normalFlow := fun _ _ d => [d]
  callFlow := fun _ _ _ => []
  retFlow := fun _ _ _ _ _ => []
  ctrFlow := fun _ _ _ => []
  summaryFlow := fun _ _ => none
  normalEdge := fun _ _ _ _ => .id
  callEdge := fun _ _ _ _ => .id
  retEdge := fun _ _ _ _ _ _ => .id
  ctrEdge := fun _ _ _ _ => .id
  sumEdge := fun _ _ _ _ => .id
  zero := 0
  seeds := [(1, [(1, .tagged)])]
  followReturnsPastSeeds := false

theorem midP_wfv : midP.icf.WFV where
  succs_fun := by decide +kernel
  ret_fun := by decide +kernel
  start_fun := by decide +kernel
  start_no_pred := by decide +kernel
  isStart_iff := by decide +kernel
  callsIn_iff := by decide +kernel
  ncs_iff := by decide +kernel

theorem midP_ok : midP.OkEdges GK.Live where
  normal := by intro n d n' d' _ _; simp only [midP, GK.Live]; decide
  call := by intro n d g d' _ _; simp only [midP, GK.Live]; decide
  ret := by intro c g e d r d' _ _; simp only [midP, GK.Live]; decide
  ctr := by intro n d r d' _ _; simp only [midP, GK.Live]; decide
  sum := by intro n d g s r d' _ _ _; simp only [midP, GK.Live]; decide

theorem midP_noTop : midP.NoTop GK.Live where
  seed := by
    rintro n d v ⟨facts, hf, h⟩
    simp only [midP, List.mem_singleton, Prod.mk.injEq] at hf
    obtain ⟨rfl, rfl⟩ := hf
    rcases h with h | ⟨_, rfl, _⟩
    · simp only [List.mem_singleton, Prod.mk.injEq] at h
      rw [h.2]; decide
    · decide
  ap := exP_noTop.ap

/-- `main: 0 → 1 (foo()) → 2`, `foo: 3 → 4 → 5`; fact 1 dies between 3 and 4 and on the call-to-return
edge. Seeds: fact 1 at the start of `main` and at statement 4 inside `foo`. -/
def midQ : Problem (Fin 6) (Fin 2) (Fin 2) BinaryDomain (EF Empty BinaryDomain) where
  icf :=
    { succs := fun n => match n with | 0 => [1] | 1 => [2] | 3 => [4] | 4 => [5] | _ => []
      isCall := fun n => n == 1
      isExit := fun n => n == 2 || n == 5
      isStart := fun n => n == 0 || n == 3
      funOf := fun n => if n.val < 3 then 0 else 1
      starts := fun f => if f = 0 then [0] else [3]
      callees := fun n => if n = 1 then [1] else []
      retSites := fun n => if n = 1 then [2] else []
      callers := fun f => if f = 1 then [1] else []
      callsIn := fun f => if f = 0 then [1] else []
      nonCallStart := [2, 4, 5] }
  alg := ifdsAlg
  normalFlow := fun n _ d => if n = 3 ∧ d = 1 then [] else [d]
  callFlow := fun _ _ d => [d]
  retFlow := fun _ _ _ _ d => [d]
  ctrFlow := fun _ _ d => if d = 1 then [] else [d]
  summaryFlow := fun _ _ => none
  normalEdge := fun _ _ _ _ => .id
  callEdge := fun _ _ _ _ => .id
  retEdge := fun _ _ _ _ _ _ => .id
  ctrEdge := fun _ _ _ _ => .id
  sumEdge := fun _ _ _ _ => .id
  zero := 0
  seeds := [(0, [(1, .BOTTOM)]), (4, [(1, .BOTTOM)])]
  followReturnsPastSeeds := false

/-! ## Unbalanced returns with generated values -/

/-- Edge functions over `Lab`: all-top, identity, constant `tagged` (also for Top). -/
inductive CT where
  | allTop | id | tag
deriving DecidableEq, Repr

/-- The algebra. -/
def ctAlg : EdgeAlg Lab CT where
  ap := fun f x => match f with | .allTop => .none | .id => x | .tag => .tagged
  extend := fun f g => match g with | .id => f | .allTop => .allTop | .tag => .tag
  combine := fun f g => match f, g with
    | .allTop, g => g | f, .allTop => f | .tag, _ => .tag | _, .tag => .tag | .id, .id => .id
  eqE := fun f g => decide (f = g)
  idE := .id
  allTop := .allTop

theorem ctAlg_sound : ctAlg.Sound (fun f => f ≠ .allTop) where
  ok_id := by decide
  ok_extend := by intro f g; cases f <;> cases g <;> decide
  ok_combine := by intro f g; cases f <;> cases g <;> decide
  ok_first := by intro f; cases f <;> decide
  not_top := by intro f; cases f <;> decide
  eq_sound := by intro f g _ _ h x; simp only [ctAlg, decide_eq_true_eq] at h; rw [h]
  ap_id := by intro x; cases x <;> decide
  mono := by intro f _ x y _; cases f <;> cases x <;> cases y <;> decide
  extend_ge := by intro f g _ _ x; cases f <;> cases g <;> cases x <;> decide
  combine_ge_left := by intro f g _ _ x; cases f <;> cases g <;> cases x <;> decide
  combine_ge_right := by intro f g _ _ x; cases f <;> cases g <;> cases x <;> decide
  first_ge := by intro f _ x; cases f <;> cases x <;> decide

/-- `foo: 0 → 1`, `main: 2 (foo()) → 3 (bar()) → 4`, `bar: 5`. Only `foo` is seeded; the return edge
tags fact 1. -/
def unbC : Problem (Fin 6) (Fin 2) (Fin 3) Lab CT where
  icf :=
    { succs := fun n => match n with | 0 => [1] | 2 => [3] | 3 => [4] | _ => []
      isCall := fun n => n == 2 || n == 3
      isExit := fun n => n == 1 || n == 4 || n == 5
      isStart := fun n => n == 0 || n == 2 || n == 5
      funOf := fun n => if n.val < 2 then 0 else if n.val < 5 then 1 else 2
      starts := fun f => match f with | 0 => [0] | 1 => [2] | 2 => [5]
      callees := fun n => match n with | 2 => [0] | 3 => [2] | _ => []
      retSites := fun n => match n with | 2 => [3] | 3 => [4] | _ => []
      callers := fun f => match f with | 0 => [2] | 2 => [3] | _ => []
      callsIn := fun f => if f = 1 then [2, 3] else []
      nonCallStart := [1, 4] }
  alg := ctAlg
  normalFlow := fun _ _ d => [d]
  callFlow := fun _ _ d => [d]
  retFlow := fun _ _ _ _ d => [d]
  ctrFlow := fun _ _ d => [d]
  summaryFlow := fun _ _ => none
  normalEdge := fun _ _ _ _ => .id
  callEdge := fun _ _ _ _ => .id
  retEdge := fun _ _ _ _ _ d => if d = 1 then .tag else .id
  ctrEdge := fun _ _ _ _ => .id
  sumEdge := fun _ _ _ _ => .id
  zero := 0
  seeds := [(0, [(1, .clean)])]
  followReturnsPastSeeds := true

theorem unbC_wfv : unbC.icf.WFV where
  succs_fun := by decide +kernel
  ret_fun := by decide +kernel
  start_fun := by decide +kernel
  start_no_pred := by decide +kernel
  isStart_iff := by decide +kernel
  callsIn_iff := by decide +kernel
  ncs_iff := by decide +kernel

theorem unbC_ok : unbC.OkEdges (fun f => f ≠ .allTop) where
  normal := by intro n d n' d' _ _; simp only [unbC]; decide
  call := by intro n d g d' _ _; simp only [unbC]; decide
  ret := by intro c g e d r d' _ _; simp only [unbC]; split <;> decide
  ctr := by intro n d r d' _ _; simp only [unbC]; decide
  sum := by intro n d g s r d' _ _ _; simp only [unbC]; decide

end Phasar.IDE
