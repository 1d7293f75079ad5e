import Verif.IDE.Termination
/-!
# The stepping and cancellation API of the solver

`include/phasar/DataFlow/IfdsIde/Solver/IDESolverAPIMixin.h`.  The clock and the cancellation requests
are an oracle (a list of answers).
-/
set_option linter.unusedSectionVars false
namespace Phasar.IDE
open Phasar JoinLat

/-- Outcome of an API call that drives Phase I. -/
inductive Out (S : Type) where
  /-- undefined behaviour -/
  | ub
  /-- the oracle is used up and the call has not returned yet, in state `s` -/
  | running (s : S)
  /-- the call returned `b` in state `s` -/
  | ret (b : Bool) (s : S)
deriving DecidableEq, Repr

section
variable {N D F L E : Type} [DecidableEq N] [DecidableEq D]

/-- `initialize()` (`IDESolverAPIMixin.h:34`, `IDESolver.h:1726-1756`): whether there is work. -/
def apiInitialize [JoinLat L] (P : Problem N D F L E) : Bool × St N D E :=
  (!(init P).wl.isEmpty, init P)

/-- `next()` (`IDESolverAPIMixin.h:44`, `IDESolver.h:1758-1768`). -/
def apiNext (P : Problem N D F L E) (s : St N D E) : Out (St N D E) :=
  match doNext P s with
  | none => .ub
  | some t => .ret (!t.wl.isEmpty) t

/-- `nextN(k)` (`IDESolverAPIMixin.h:54-66`). -/
def apiNextN (P : Problem N D F L E) : Nat → St N D E → Out (St N D E)
  | 0, s => .ret true s
  | k + 1, s =>
    match apiNext P s with
    | .ret true t => apiNextN P k t
    | o => o

/-- The new number of iterations (`IDESolverAPIMixin.h:476-480`) for `delta` nanoseconds spent.
Simplification: exact arithmetic instead of `double`. -/
def adjust (interval k delta : Nat) : Nat :=
  (k + 2 * (k * interval * 1000000 / delta)) / 3

/-- `continueUntilImpl` (`IDESolverAPIMixin.h:445-486`) with the number of iterations `k` of the next
batch. Each oracle entry answers one batch: nanoseconds spent and whether cancellation is requested.
`delta = 0` makes the code divide by zero and convert infinity or NaN to `size_t`, which is undefined.
The final check after the last batch (:484-485) uses the same entry. -/
def continueUntilLoop (P : Problem N D F L E) (interval : Nat) :
    List (Nat × Bool) → Nat → St N D E → Out (St N D E)
  | [], _, s => .running s
  | (delta, cancel) :: o, k, s =>
    match apiNextN P k s with
    | .ret true t =>
      if cancel then .ret false t
      else if delta = 0 then .ub
      else continueUntilLoop P interval o (adjust interval k delta) t
    | .ret false t => .ret (!cancel) t
    | r => r

/-- `continueUntilImpl` with its initial number of iterations (`IDESolverAPIMixin.h:460-462`). -/
def continueUntil (P : Problem N D F L E) (interval : Nat) (o : List (Nat × Bool)) (s : St N D E) :
    Out (St N D E) := continueUntilLoop P interval o (interval * 500) s

/-- `solveUntilImpl` (`IDESolverAPIMixin.h:489-512`): `c0` is the answer of the first check. -/
def solveUntil [JoinLat L] (P : Problem N D F L E) (interval : Nat) (c0 : Bool)
    (o : List (Nat × Bool)) : Out (St N D E) :=
  let (b, s) := apiInitialize P
  if c0 then .ret false s
  else if b then continueUntil P interval o s else .ret true s

/-- `continueWithAsyncCancellationImpl` (`IDESolverAPIMixin.h:514-522`): one answer per step. -/
def continueAsync (P : Problem N D F L E) : List Bool → St N D E → Out (St N D E)
  | [], s => .running s
  | c :: o, s =>
    match apiNext P s with
    | .ret true t => if c then .ret false t else continueAsync P o t
    | .ret false t => .ret (!c) t
    | r => r

/-- `solveWithAsyncCancellationImpl` (`IDESolverAPIMixin.h:524-532`). -/
def solveAsync [JoinLat L] (P : Problem N D F L E) (c0 : Bool) (o : List Bool) : Out (St N D E) :=
  let (b, s) := apiInitialize P
  if c0 then .ret false s
  else if b then continueAsync P o s else .ret true s

/-- `continueSolving()`: `continueImpl` (`IDESolverAPIMixin.h:433-437`), observed for `k` steps. -/
def continueSolving (P : Problem N D F L E) : Nat → St N D E → Out (St N D E)
  | 0, s => .running s
  | k + 1, s =>
    match apiNext P s with
    | .ret true t => continueSolving P k t
    | r => r

/-- A call on a started solver. -/
inductive ApiOp where
  | next
  | nextN (k : Nat)
  | continueUntil (interval : Nat) (o : List (Nat × Bool))
  | continueAsync (o : List Bool)
  | continueSolving (k : Nat)

/-- Perform a call on a started solver (`IDESolverAPIMixin.h:44-420`). -/
def ApiOp.run (P : Problem N D F L E) : ApiOp → St N D E → Out (St N D E)
  | .next, s => apiNext P s
  | .nextN k, s => apiNextN P k s
  | .continueUntil i o, s => IDE.continueUntil P i o s
  | .continueAsync o, s => IDE.continueAsync P o s
  | .continueSolving k, s => IDE.continueSolving P k s

/-! ## Lemmas -/

/-- `t` is reached from `s` by `k` calls of `doNext`. -/
inductive NextSteps (P : Problem N D F L E) : Nat → St N D E → St N D E → Prop
  | refl (s) : NextSteps P 0 s s
  | head {k s t u} : doNext P s = some t → NextSteps P k t u → NextSteps P (k + 1) s u

theorem NextSteps.trans {P : Problem N D F L E} {j k : Nat} {s t u : St N D E}
    (h1 : NextSteps P j s t) (h2 : NextSteps P k t u) : NextSteps P (k + j) s u := by
  induction h1 with
  | refl => exact h2
  | head h _ ih => exact .head h (ih h2)

/-- What every call guarantees when started in `s`: if there is work at the start it does not run into
an empty worklist; the state it leaves is reached by `doNext` steps; if it says "no more work"/"not
cancelled, finished" (`okFinal`), the worklist is empty. -/
def OpSpec (P : Problem N D F L E) (s t : St N D E) : Prop := ∃ k, NextSteps P k s t

theorem apiNext_spec (P : Problem N D F L E) (s : St N D E) :
    (apiNext P s = .ub ↔ s.wl = []) ∧
    (∀ b t, apiNext P s = .ret b t → doNext P s = some t ∧ (b = true ↔ t.wl ≠ [])) ∧
    (∀ t, apiNext P s ≠ .running t) := by
  unfold apiNext
  cases h : doNext P s with
  | none =>
    refine ⟨⟨fun _ => ?_, fun _ => rfl⟩, (by intro b t h; cases h), (by intro t h; cases h)⟩
    unfold doNext at h
    split at h
    · rename_i h'; simpa using h'
    · cases h
  | some t =>
    refine ⟨⟨(by intro h; cases h), fun hw => ?_⟩, ?_, (by intro t h; cases h)⟩
    · unfold doNext at h
      rw [hw] at h
      cases h
    · intro b u hu
      cases hu
      refine ⟨rfl, ?_⟩
      simp

theorem apiNextN_spec (P : Problem N D F L E) (k : Nat) : ∀ s : St N D E,
    (s.wl ≠ [] → apiNextN P k s ≠ .ub) ∧
    (∀ b t, apiNextN P k s = .ret b t → OpSpec P s t ∧ (b = false → t.wl = []) ∧
      (b = true → s.wl ≠ [] → t.wl ≠ [])) ∧
    (∀ t, apiNextN P k s ≠ .running t) := by
  induction k with
  | zero =>
    intro s
    refine ⟨(by intro _ h; cases h), ?_, (by intro t h; cases h)⟩
    intro b t h
    cases h
    exact ⟨⟨0, .refl _⟩, (by intro h; cases h), fun _ h => h⟩
  | succ k ih =>
    intro s
    obtain ⟨h1, h2, h3⟩ := apiNext_spec P s
    simp only [apiNextN]
    cases hn : apiNext P s with
    | ub => exact ⟨fun hw => absurd (h1.1 hn) hw, (by intro b t h; cases h), (by intro t h; cases h)⟩
    | running t => exact absurd hn (h3 t)
    | ret b t =>
      obtain ⟨hd, hb⟩ := h2 b t hn
      cases b with
      | false =>
        refine ⟨(by intro _ h; cases h), ?_, (by intro t h; cases h)⟩
        intro b u h
        cases h
        refine ⟨⟨1, .head hd (.refl _)⟩, fun _ => ?_, (by intro h; cases h)⟩
        apply Classical.byContradiction
        intro hne
        exact absurd (hb.2 hne) (by simp)
      | true =>
        have ht := hb.1 rfl
        obtain ⟨i1, i2, i3⟩ := ih t
        refine ⟨fun _ => i1 ht, ?_, i3⟩
        intro b u h
        obtain ⟨⟨j, hj⟩, i4, i5⟩ := i2 b u h
        exact ⟨⟨j + 1, .head hd hj⟩, i4, fun hb' _ => i5 hb' ht⟩

theorem OpSpec.trans {P : Problem N D F L E} {s t u : St N D E} (h1 : OpSpec P s t)
    (h2 : OpSpec P t u) : OpSpec P s u := by
  obtain ⟨j, h1⟩ := h1
  obtain ⟨k, h2⟩ := h2
  exact ⟨_, h1.trans h2⟩

/-- Specification of one interruptible call. -/
structure CallSpec (P : Problem N D F L E) (s : St N D E) (r : Out (St N D E)) : Prop where
  safe : s.wl ≠ [] → r ≠ .ub
  ret : ∀ b t, r = .ret b t → OpSpec P s t
  done : ∀ t, r = .ret true t → t.wl = []
  running : ∀ t, r = .running t → OpSpec P s t

theorem continueUntilLoop_spec (P : Problem N D F L E) (i : Nat) (o : List (Nat × Bool))
    (ho : ∀ p ∈ o, p.1 ≠ 0) : ∀ (k : Nat) (s : St N D E), CallSpec P s (continueUntilLoop P i o k s) := by
  induction o with
  | nil =>
    intro k s
    exact ⟨(by intro _ h; cases h), (by intro b t h; cases h), (by intro t h; cases h),
      (by intro t h; cases h; exact ⟨0, .refl _⟩)⟩
  | cons p o ih =>
    intro k s
    obtain ⟨delta, cancel⟩ := p
    obtain ⟨h1, h2, h3⟩ := apiNextN_spec P k s
    simp only [continueUntilLoop]
    cases hn : apiNextN P k s with
    | ub => exact ⟨fun hw _ => h1 hw hn, (by intro b t h; cases h), (by intro t h; cases h),
        (by intro t h; cases h)⟩
    | running t => exact absurd hn (h3 t)
    | ret b t =>
      obtain ⟨hs, hf, ht⟩ := h2 b t hn
      cases b with
      | false =>
        refine ⟨(by intro _ h; cases h), ?_, ?_, (by intro t h; cases h)⟩
        · intro b u h; cases h; exact hs
        · intro u h; injection h with _ h2; rw [← h2]; exact hf rfl
      | true =>
        dsimp only
        split
        · refine ⟨(by intro _ h; cases h), ?_, (by intro t h; cases h), (by intro t h; cases h)⟩
          intro b u h; cases h; exact hs
        · rw [if_neg (ho _ List.mem_cons_self)]
          obtain ⟨i1, i2, i3, i4⟩ := ih (fun p hp => ho p (List.mem_cons_of_mem _ hp)) (adjust i k delta) t
          exact ⟨fun hw => i1 (ht rfl hw), fun b u h => hs.trans (i2 b u h), i3,
            fun u h => hs.trans (i4 u h)⟩

theorem continueAsync_spec (P : Problem N D F L E) (o : List Bool) : ∀ s : St N D E,
    CallSpec P s (continueAsync P o s) := by
  induction o with
  | nil =>
    intro s
    exact ⟨(by intro _ h; cases h), (by intro b t h; cases h), (by intro t h; cases h),
      (by intro t h; cases h; exact ⟨0, .refl _⟩)⟩
  | cons c o ih =>
    intro s
    obtain ⟨h1, h2, h3⟩ := apiNext_spec P s
    simp only [continueAsync]
    cases hn : apiNext P s with
    | ub => exact ⟨fun hw _ => hw (h1.1 hn), (by intro b t h; cases h), (by intro t h; cases h),
        (by intro t h; cases h)⟩
    | running t => exact absurd hn (h3 t)
    | ret b t =>
      obtain ⟨hd, hb⟩ := h2 b t hn
      have hs : OpSpec P s t := ⟨1, .head hd (.refl _)⟩
      cases b with
      | false =>
        have hw : t.wl = [] := Classical.byContradiction fun hne => absurd (hb.2 hne) (by simp)
        refine ⟨(by intro _ h; cases h), ?_, ?_, (by intro t h; cases h)⟩
        · intro b u h; cases h; exact hs
        · intro u h; injection h with _ h2; rw [← h2]; exact hw
      | true =>
        have ht := hb.1 rfl
        dsimp only
        split
        · refine ⟨(by intro _ h; cases h), ?_, (by intro t h; cases h), (by intro t h; cases h)⟩
          intro b u h; cases h; exact hs
        · obtain ⟨i1, i2, i3, i4⟩ := ih t
          exact ⟨fun _ => i1 ht, fun b u h => hs.trans (i2 b u h), i3, fun u h => hs.trans (i4 u h)⟩

/-- `continueSolving` returns only when the worklist is empty. -/
theorem continueSolving_spec (P : Problem N D F L E) (k : Nat) : ∀ s : St N D E,
    (s.wl ≠ [] → continueSolving P k s ≠ .ub) ∧
    (∀ b t, continueSolving P k s = .ret b t → OpSpec P s t ∧ t.wl = []) ∧
    (∀ t, continueSolving P k s = .running t → OpSpec P s t) := by
  induction k with
  | zero =>
    intro s
    exact ⟨(by intro _ h; cases h), (by intro b t h; cases h),
      (by intro t h; cases h; exact ⟨0, .refl _⟩)⟩
  | succ k ih =>
    intro s
    obtain ⟨h1, h2, h3⟩ := apiNext_spec P s
    simp only [continueSolving]
    cases hn : apiNext P s with
    | ub => exact ⟨fun hw _ => hw (h1.1 hn), (by intro b t h; cases h), (by intro t h; cases h)⟩
    | running t => exact absurd hn (h3 t)
    | ret b t =>
      obtain ⟨hd, hb⟩ := h2 b t hn
      have hs : OpSpec P s t := ⟨1, .head hd (.refl _)⟩
      cases b with
      | false =>
        have hw : t.wl = [] := Classical.byContradiction fun hne => absurd (hb.2 hne) (by simp)
        refine ⟨(by intro _ h; cases h), ?_, (by intro t h; cases h)⟩
        intro b u h; cases h; exact ⟨hs, hw⟩
      | true =>
        obtain ⟨i1, i2, i3⟩ := ih t
        exact ⟨fun _ => i1 (hb.1 rfl), fun b u h => ⟨hs.trans (i2 b u h).1, (i2 b u h).2⟩,
          fun u h => hs.trans (i3 u h)⟩

theorem nextSteps_run {P : Problem N D F L E} {k : Nat} {s t : St N D E} (h : NextSteps P k s t)
    (hw : t.wl = []) : runPhase1 P k s = some t := by
  induction h with
  | refl => simp [runPhase1, hw]
  | head hd _ ih => simp only [runPhase1, hd]; exact ih hw

/-- A sequence of completed calls on a started solver, from state `s` to state `t`. -/
inductive Session (P : Problem N D F L E) : St N D E → St N D E → Prop
  | nil (s) : Session P s s
  | call {s t u} (op : ApiOp) (b : Bool) : op.run P s = .ret b t → Session P t u → Session P s u

/-- The clock advances between two checks (`IDESolverAPIMixin.h:468-471`). -/
def ApiOp.ClockOk : ApiOp → Prop
  | .continueUntil _ o => ∀ p ∈ o, p.1 ≠ 0
  | _ => True

theorem continueUntilLoop_ret (P : Problem N D F L E) (i : Nat) (o : List (Nat × Bool)) :
    ∀ (k : Nat) (s : St N D E) (b : Bool) (t : St N D E), continueUntilLoop P i o k s = .ret b t →
    OpSpec P s t := by
  induction o with
  | nil => intro k s b t h; cases h
  | cons p o ih =>
    intro k s b t h
    obtain ⟨delta, cancel⟩ := p
    obtain ⟨h1, h2, h3⟩ := apiNextN_spec P k s
    simp only [continueUntilLoop] at h
    cases hn : apiNextN P k s with
    | ub => rw [hn] at h; cases h
    | running t => exact absurd hn (h3 t)
    | ret b' u =>
      obtain ⟨hs, hf, ht⟩ := h2 b' u hn
      rw [hn] at h
      cases b' with
      | false => dsimp only at h; injection h with _ h; rw [← h]; exact hs
      | true =>
        dsimp only at h
        split at h
        · injection h with _ h; rw [← h]; exact hs
        · split at h
          · cases h
          · exact hs.trans (ih _ _ _ _ h)

theorem ApiOp.ret_spec {P : Problem N D F L E} {op : ApiOp} {s t : St N D E} {b : Bool}
    (h : op.run P s = .ret b t) : OpSpec P s t := by
  cases op with
  | next => exact ⟨1, .head ((apiNext_spec P s).2.1 b t h).1 (.refl _)⟩
  | nextN k => exact ((apiNextN_spec P k s).2.1 b t h).1
  | continueUntil i o => exact continueUntilLoop_ret P i o _ s b t h
  | continueAsync o => exact (continueAsync_spec P o s).ret b t h
  | continueSolving k => exact ((continueSolving_spec P k s).2.1 b t h).1

theorem ApiOp.safe {P : Problem N D F L E} {op : ApiOp} (hc : op.ClockOk) {s : St N D E}
    (hw : s.wl ≠ []) : op.run P s ≠ .ub := by
  cases op with
  | next => intro h; exact hw ((apiNext_spec P s).1.1 h)
  | nextN k => exact (apiNextN_spec P k s).1 hw
  | continueUntil i o => exact (continueUntilLoop_spec P i o hc _ s).safe hw
  | continueAsync o => exact (continueAsync_spec P o s).safe hw
  | continueSolving k => exact (continueSolving_spec P k s).1 hw

theorem Session.spec {P : Problem N D F L E} {s t : St N D E} (h : Session P s t) : OpSpec P s t := by
  induction h with
  | nil => exact ⟨0, .refl _⟩
  | call op b h _ ih => exact (ApiOp.ret_spec h).trans ih

/-- `finalize()` (`IDESolver.h:1770-1791`): Phase II from the given Phase I state, with fuel. -/
def finalize [JoinLat L] [DecidableEq L] (P : Problem N D F L E) (fuel : Nat) (s : St N D E) :
    Option (VS N D L) := do
  let v ← runPhase2 P s fuel (submitInitialValues P s)
  return valueComputationTask P s.jump v

theorem solve_eq [JoinLat L] [DecidableEq L] (P : Problem N D F L E) (k : Nat) :
    solve P k = (runPhase1 P k (init P)).bind fun s => (finalize P k s).map fun v => (s, v) := by
  unfold solve finalize
  cases runPhase1 P k (init P) with
  | none => rfl
  | some s =>
    simp only [Option.bind_eq_bind, Option.bind_some]
    cases runPhase2 P s k (submitInitialValues P s) <;> rfl

end
end Phasar.IDE
