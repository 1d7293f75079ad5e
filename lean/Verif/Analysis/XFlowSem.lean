import Verif.Analysis.XFlow
/-!
# Values along the paths of the extended taint analysis

The exploded supergraph of the flow functions and edge functions in `Verif/Analysis/XFlow.lean`: its edges, the values paths give, and the
paths on which nothing is sanitized.  The solver joins the values of paths; paths that return to another caller than they came from are
included here, so what is said about all values holds for the paths the solver follows.
-/
namespace Phasar.XFlow
open Phasar AML

variable (p : Prog) (q : Asks) (load : Nat → Option Nat)

/-- The edges of the exploded supergraph, as the solver asks for flow functions and edge functions
(`include/phasar/DataFlow/IfdsIde/Solver/IDESolver.h:355-600, 886-1020`; see `Verif/IDE/Model.lean`). -/
inductive Step : Nat → Loc → Nat → Loc → EFn → Prop where
  | normal {n n' d d'} : p.icf.isCall n = false → n' ∈ p.icf.succs n → d' ∈ (p.normalFlow q n d).facts →
      Step n d n' d' (p.normalEdge q n d d')
  | call {n f sp d d'} : p.icf.isCall n = true → f ∈ p.icf.callees n → p.summaryFlow q n f = none → sp ∈ p.icf.starts f →
      d' ∈ p.callFlow q n f d → Step n d sp d' (p.callEdge q load n d d')
  | summary {n f r d d' g} : p.icf.isCall n = true → f ∈ p.icf.callees n → p.summaryFlow q n f = some g → r ∈ p.icf.retSites n →
      d' ∈ (g d).facts → Step n d r d' (p.sumEdge q n d d')
  | ret {c x r d d' l} : p.icf.isExit x = true → c ∈ p.icf.callers (p.icf.funOf x) →
      p.summaryFlow q c (p.icf.funOf x) = none → r ∈ p.icf.retSites c →
      p.retFlow? q (some c) (p.icf.funOf x) x d = some l → d' ∈ l → Step x d r d' (p.retEdge q load c x d d')
  | over {n r d d'} : p.icf.isCall n = true → r ∈ p.icf.retSites n → d' ∈ p.ctrFlow n d →
      Step n d r d' (p.ctrEdge q n d d')

/-- `Val n d x`: some path from a seed to the fact `d` at `n` gives the value `x`.  Seeds: the zero fact at the entries with bottom, the
facts of the configuration without sanitizer (`IDEExtendedTaintAnalysis.cpp:40-64`). -/
inductive Val : Nat → Loc → XTaint.Dom Nat → Prop where
  | entry {n} : n ∈ p.entry → Val n p.zero .bot
  | auto {n v} : v ∈ p.autoSeed n → Val n (q.fact v) .unsani
  | step {n d n' d' x e} : Val n d x → Step p q load n d n' d' e → Val n' d' (e.ap p.bbo x)

/-- Some path reaches the fact `d` at `n` without an edge that sets a sanitizer. -/
inductive Clean : Nat → Loc → Prop where
  | entry {n} : n ∈ p.entry → Clean n p.zero
  | auto {n v} : v ∈ p.autoSeed n → Clean n (q.fact v)
  | step {n d n' d' e} : Clean n d → Step p q load n d n' d' e → (∀ i, e ≠ .gen (some i)) → Clean n' d'

/-- What the flow functions at `n` insert into `Leaks` for the fact `d`. -/
def leaksAt (n : Nat) (d : Loc) : List (Nat × Nat) :=
  if p.icf.isCall n then (p.icf.callees n).flatMap fun f =>
    match p.summaryFlow q n f with
    | some g => (g d).leaks
    | none => []
  else (p.normalFlow q n d).leaks

/-- The instruction `i` may be the sanitizer in a value: it stores to a location that must alias a fact that reaches it, or is configured
to sanitize it, or is called with a pointer to it, or is the call site of a function that returned a sanitized fact. -/
inductive Cause : Nat → Prop where
  | store {i v ptr d x} : p.inst i = .store v ptr → Val p q load i d x →
      (mustAlias p.fnOf p.must d (q.fact ptr) = true ∨ ∃ k ∈ p.saniAt i none, equiv (q.fact k) d = true) → Cause i
  | memory {i dst d x} : (∃ v, p.inst i = .memset dst v ∨ p.inst i = .memcpy dst v) → Val p q load i d x →
      mustAlias p.fnOf p.must d (q.fact dst) = true → Cause i
  | config {i k d x} : p.icf.callees i ≠ [] → (∀ f ∈ p.icf.callees i, k ∈ p.saniAt i (some f)) → Val p q load i d x →
      equiv (q.fact k) d = true → Cause i
  | passed {i a f d x} : f ∈ p.icf.callees i → p.isIntrinsic f = false → a ∈ p.args i → p.isPtr a = true → Val p q load i d x →
      equiv d (q.fact a) = true → Cause i
  | back {i c x} : Cause i → p.icf.isExit x = true → c ∈ p.icf.callers (p.icf.funOf x) → Cause c

/-! ### Computing the edges -/

/-- The targets of the edges from a fact at a statement. -/
def nexts (n : Nat) (d : Loc) : List (Nat × Loc × EFn) :=
  (if p.icf.isCall n then [] else
    (p.icf.succs n).flatMap fun n' => (p.normalFlow q n d).facts.map fun d' => (n', d', p.normalEdge q n d d')) ++
  (if p.icf.isCall n then
    ((p.icf.callees n).flatMap fun f =>
      match p.summaryFlow q n f with
      | none => (p.icf.starts f).flatMap fun sp => (p.callFlow q n f d).map fun d' => (sp, d', p.callEdge q load n d d')
      | some g => (p.icf.retSites n).flatMap fun r => (g d).facts.map fun d' => (r, d', p.sumEdge q n d d')) ++
    ((p.icf.retSites n).flatMap fun r => (p.ctrFlow n d).map fun d' => (r, d', p.ctrEdge q n d d'))
  else []) ++
  (if p.icf.isExit n then
    (p.icf.callers (p.icf.funOf n)).flatMap fun c =>
      match p.summaryFlow q c (p.icf.funOf n) with
      | some _ => []
      | none => (p.icf.retSites c).flatMap fun r =>
        ((p.retFlow? q (some c) (p.icf.funOf n) n d).getD []).map fun d' => (r, d', p.retEdge q load c n d d')
  else [])

theorem nexts_of_step {p : Prog} {q : Asks} {load : Nat → Option Nat} {n n' d d' e} (h : Step p q load n d n' d' e) :
    (n', d', e) ∈ nexts p q load n d := by
  unfold nexts
  cases h with
  | normal h1 h2 h3 =>
    rw [if_neg (by simp [h1])]
    refine List.mem_append_left _ (List.mem_append_left _ (List.mem_flatMap.2 ⟨_, h2, List.mem_map.2 ⟨_, h3, rfl⟩⟩))
  | call h1 h2 h3 h4 h5 =>
    rw [if_pos h1, if_pos h1]
    refine List.mem_append_left _ (List.mem_append_right _ (List.mem_append_left _ (List.mem_flatMap.2 ⟨_, h2, ?_⟩)))
    simp only [h3]
    exact List.mem_flatMap.2 ⟨_, h4, List.mem_map.2 ⟨_, h5, rfl⟩⟩
  | summary h1 h2 h3 h4 h5 =>
    rw [if_pos h1, if_pos h1]
    refine List.mem_append_left _ (List.mem_append_right _ (List.mem_append_left _ (List.mem_flatMap.2 ⟨_, h2, ?_⟩)))
    simp only [h3]
    exact List.mem_flatMap.2 ⟨_, h4, List.mem_map.2 ⟨_, h5, rfl⟩⟩
  | ret h1 h2 h3 h4 h5 h6 =>
    rw [if_pos h1]
    refine List.mem_append_right _ (List.mem_flatMap.2 ⟨_, h2, ?_⟩)
    simp only [h3, h5, Option.getD_some]
    exact List.mem_flatMap.2 ⟨_, h4, List.mem_map.2 ⟨_, h6, rfl⟩⟩
  | over h1 h2 h3 =>
    rw [if_pos h1, if_pos h1]
    exact List.mem_append_left _ (List.mem_append_right _ (List.mem_append_right _
      (List.mem_flatMap.2 ⟨_, h2, List.mem_map.2 ⟨_, h3, rfl⟩⟩)))

theorem step_of_nexts {p : Prog} {q : Asks} {load : Nat → Option Nat} {n n' d d' e} (h : (n', d', e) ∈ nexts p q load n d) :
    Step p q load n d n' d' e := by
  unfold nexts at h
  rcases List.mem_append.1 h with h | h
  · rcases List.mem_append.1 h with h | h
    · by_cases h1 : p.icf.isCall n = true
      · rw [if_pos h1] at h; cases h
      · rw [if_neg h1] at h
        obtain ⟨m, hm, h⟩ := List.mem_flatMap.1 h
        obtain ⟨c, hc, h⟩ := List.mem_map.1 h
        cases h
        exact .normal (by simpa using h1) hm hc
    · by_cases h1 : p.icf.isCall n = true
      · rw [if_pos h1] at h
        rcases List.mem_append.1 h with h | h
        · obtain ⟨f, hf, h⟩ := List.mem_flatMap.1 h
          cases hs : p.summaryFlow q n f with
          | none =>
            simp only [hs] at h
            obtain ⟨m, hm, h⟩ := List.mem_flatMap.1 h
            obtain ⟨c, hc, h⟩ := List.mem_map.1 h
            cases h
            exact .call h1 hf hs hm hc
          | some g =>
            simp only [hs] at h
            obtain ⟨m, hm, h⟩ := List.mem_flatMap.1 h
            obtain ⟨c, hc, h⟩ := List.mem_map.1 h
            cases h
            exact .summary h1 hf hs hm hc
        · obtain ⟨m, hm, h⟩ := List.mem_flatMap.1 h
          obtain ⟨c, hc, h⟩ := List.mem_map.1 h
          cases h
          exact .over h1 hm hc
      · rw [if_neg h1] at h; cases h
  · by_cases h1 : p.icf.isExit n = true
    · rw [if_pos h1] at h
      obtain ⟨c, hc, h⟩ := List.mem_flatMap.1 h
      cases hs : p.summaryFlow q c (p.icf.funOf n) with
      | some g => simp only [hs] at h; cases h
      | none =>
        simp only [hs] at h
        obtain ⟨r, hr, h⟩ := List.mem_flatMap.1 h
        obtain ⟨x, hx, h⟩ := List.mem_map.1 h
        cases h
        cases hl : p.retFlow? q (some c) (p.icf.funOf n) n d with
        | none => rw [hl] at hx; cases hx
        | some l => rw [hl] at hx; exact .ret h1 hc hs hr hl hx
    · rw [if_neg h1] at h; cases h

/-- A set of values that contains the seeds and that every edge stays in contains all values. -/
theorem Val.closed {p : Prog} {q : Asks} {load : Nat → Option Nat} {S : List (Nat × Loc × XTaint.Dom Nat)}
    (hauto : ∀ n, p.autoSeed n = []) (hentry : ∀ n ∈ p.entry, (n, p.zero, XTaint.Dom.bot) ∈ S)
    (hstep : ∀ s ∈ S, ∀ t ∈ nexts p q load s.1 s.2.1, (t.1, t.2.1, t.2.2.ap p.bbo s.2.2) ∈ S)
    {n d x} (h : Val p q load n d x) : (n, d, x) ∈ S := by
  induction h with
  | entry h => exact hentry _ h
  | auto h => rw [hauto] at h; cases h
  | step _ h ih => exact hstep _ ih _ (nexts_of_step h)

end Phasar.XFlow
