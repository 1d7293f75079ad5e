import Verif.IDE.Extra
/-!
# Properties of the IFDS/IDE solver (C01–C11)

Each theorem is stated against the run semantics of `Verif.IDE.Spec`/`Verif.IDE.Ifds`; beside it stands
an instance on a concrete program.
-/
set_option linter.unusedSectionVars false
namespace Phasar.IDE
open Phasar JoinLat

section
variable {N D F L E : Type} [DecidableEq N] [DecidableEq D]

/-! ## C01 -/

/-- C01: after `solve()` of an IFDS problem, `d ∈ ifdsResultsAt(n)` iff a realizable run of the flow
functions leads from a seed to `(n, d)`. -/
theorem C01_ifds_exact {P : Problem N D F BinaryDomain (EF Empty BinaryDomain)} (hI : IsIFDS P)
    (hwf : P.icf.WFV) (huniq : P.icf.UniqueStart) (hfr : P.followReturnsPastSeeds = false)
    (hs : SeedsAtStart P) (hsum : SummariesDisjoint P)
    {s : St N D (EF Empty BinaryDomain)} {w : VS N D BinaryDomain} (h : Solved P s w) (n : N) (d : D) :
    ifdsResultsAt w n d ↔ FactReachable P n d := by
  rw [← factReachable_iff]
  constructor
  · exact fun hst => solved_facts hwf huniq hfr hs hsum h hst
  · rintro ⟨v, hv⟩
    have hA : P.alg.Sound (fun f => f = .id) := by rw [hI.alg]; exact ifdsAlg_sound
    exact (solved_sound hA hI.okEdges hwf hI.noTop hs h hv).2

/-- C01, the half that needs neither unique start points nor the summary condition, and holds with
unbalanced returns switched on: every realizable fact is reported. -/
theorem C01_ifds_complete {P : Problem N D F BinaryDomain (EF Empty BinaryDomain)} (hI : IsIFDS P)
    (hwf : P.icf.WFV) (hs : SeedsAtStart P)
    {s : St N D (EF Empty BinaryDomain)} {w : VS N D BinaryDomain} (h : Solved P s w) (n : N) (d : D)
    (hr : FactReachable P n d) : ifdsResultsAt w n d := by
  obtain ⟨v, hv⟩ := factReachable_iff.2 hr
  have hA : P.alg.Sound (fun f => f = .id) := by rw [hI.alg]; exact ifdsAlg_sound
  exact (solved_sound hA hI.okEdges hwf hI.noTop hs h hv).2

/-- Instance: the recursive example; the run of the code's own order exists and reports `res` (3) at
statement 3 but not `p` (2). -/
example : ∃ s w, Solved exI s w ∧ ifdsResultsAt w 3 3 ∧ ¬ ifdsResultsAt w 3 2 ∧
    (∀ n d, ifdsResultsAt w n d ↔ FactReachable exI n d) := by
  have h : (solve exI 100).any (fun p => decide (p.2.tab.get (3, 3) = some .BOTTOM) &&
      decide (p.2.tab.get (3, 2) = none)) = true := by decide +kernel
  obtain ⟨⟨s, w⟩, h1, h2⟩ := exists_of_any h
  have hS := solve_sound h1
  simp only [Bool.and_eq_true, decide_eq_true_eq] at h2
  refine ⟨s, w, hS, ⟨_, h2.1⟩, ?_, C01_ifds_exact exI_ifds exICFG_wfv exICFG_unique rfl exI_seeds exI_disjoint hS⟩
  rintro ⟨l, hl⟩
  rw [h2.2] at hl
  cases hl

variable [JoinLat L] [DecidableEq L]

/-! ## C02 -/

/-- C02: the value reported by `solve()` is above the value of every realizable run, and a value is
stored wherever a run arrives. -/
theorem C02_sound {P : Problem N D F L E} {ok : E → Prop} (hA : P.alg.Sound ok)
    (hP : P.OkEdges ok) (hwf : P.icf.WFV) (hnt : P.NoTop ok) (hs : SeedsAtStart P)
    {s : St N D E} {w : VS N D L} (h : Solved P s w) (n : N) (d : D) (x : L)
    (hr : RunVal P n d x) : ∃ l, resultAt w n d = some l ∧ x ⊑ l := by
  obtain ⟨h1, l, hl⟩ := solved_sound hA hP hwf hnt hs h hr
  exact ⟨l, hl, by rw [← val_eq hl]; exact h1⟩

/-- C02, with soundness of the edge functions only required between each pair of facts: joins that are not upper bounds do no
harm if they are never taken. -/
theorem C02_sound_for {P : Problem N D F L E} {ok : D → D → E → Prop} (hA : P.alg.SoundFor ok)
    (hP : P.OkEdgesFor ok) (hwf : P.icf.WFV) (hnt : P.NoTop (AnyPair ok)) (hs : SeedsAtStart P)
    {s : St N D E} {w : VS N D L} (h : Solved P s w) (n : N) (d : D) (x : L)
    (hr : RunVal P n d x) : ∃ l, resultAt w n d = some l ∧ x ⊑ l := by
  obtain ⟨h1, l, hl⟩ := solved_soundFor hA hP hwf hnt hs h hr
  exact ⟨l, hl, by rw [← val_eq hl]; exact h1⟩

/-- C02 for problems built from phasar's own edge functions (`EdgeIdentity`, `AllBottom`, constants,
compositions, joins and monotone user functions that do not produce Top from something else). -/
theorem C02_builtin {Pr : Type} [DecidableEq Pr] (c : EFCfg Pr L) (lt : EF Pr L → EF Pr L → Bool)
    (hlt : EF.NoTies lt) (hbt : (bottom : L) ≠ top)
    (hmono : ∀ p x y, x ⊑ y → c.pap p x ⊑ c.pap p y)
    {P : Problem N D F L (EF Pr L)} (hPA : P.alg = EF.alg c lt)
    (hP : P.OkEdges (EF.Live c)) (hwf : P.icf.WFV) (hnt : P.NoTop (EF.Live c)) (hs : SeedsAtStart P)
    {s : St N D (EF Pr L)} {w : VS N D L} (h : Solved P s w) (n : N) (d : D) (x : L)
    (hr : RunVal P n d x) : ∃ l, resultAt w n d = some l ∧ x ⊑ l :=
  C02_sound (by rw [hPA]; exact EF.alg_sound c hlt hbt hmono) hP hwf hnt hs h n d x hr

/-! ## C03 -/

/-- C03: with exact, distributive edge functions the reported value is the least upper bound of the
values of all realizable runs. -/
theorem C03_lub {P : Problem N D F L E} {ok : E → Prop} (hA : P.alg.Sound ok)
    (hX : P.alg.Exact ok) (hP : P.OkEdges ok) (hnt : P.NoTop ok)
    (hwf : P.icf.WFV) (huniq : P.icf.UniqueStart) (hfr : P.followReturnsPastSeeds = false)
    (hs : SeedsAtStart P) (hsum : SummariesDisjoint P)
    {s : St N D E} {w : VS N D L} (h : Solved P s w) (n : N) (d : D) (l : L)
    (hl : resultAt w n d = some l) : IsLub (RunVal P n d) l := by
  refine ⟨fun x hx => ?_, fun u hu => ?_⟩
  · rw [← val_eq hl]
    exact (solved_sound hA hP hwf hnt hs h hx).1
  · exact (solved_exact hA hX hP hnt hwf huniq hfr hs hsum h hl).le_of_ub hu

/-- C03, where exactness is known only for the edge functions between each pair of facts: the reported value is still the
least upper bound of the values of all realizable runs. -/
theorem C03_lub_for {P : Problem N D F L E} {ok : D → D → E → Prop} (hA : P.alg.SoundFor ok)
    (hP : P.OkEdgesFor ok) (hnt : P.NoTop (AnyPair ok)) {okF : D → D → E → Prop} (hX : P.alg.ExactFor okF) (hPF : P.OkEdgesFor okF)
    (hwf : P.icf.WFV) (huniq : P.icf.UniqueStart) (hfr : P.followReturnsPastSeeds = false)
    (hs : SeedsAtStart P) (hsum : SummariesDisjoint P)
    {s : St N D E} {w : VS N D L} (h : Solved P s w) (n : N) (d : D) (l : L)
    (hl : resultAt w n d = some l) : IsLub (RunVal P n d) l := by
  refine ⟨fun x hx => ?_, fun u hu => ?_⟩
  · rw [← val_eq hl]
    exact (solved_soundFor hA hP hwf hnt hs h hx).1
  · exact (solved_exactFor hA hP hnt hX hPF hwf huniq hfr hs hsum h hl).le_of_ub hu

/-- C03, what remains if joins of edge functions may be too small (so `C02_sound` fails) or values are not comparable: the
reported value is in every set `Q` of values that contains the values of all realizable runs and that the edge functions respect.  (Instances: the three sets of labels behind `C74_precise`.) -/
theorem C03_stays {P : Problem N D F L E} {ok : D → D → E → Prop} {Q : L → Prop} (hA : P.alg.StaysIn ok Q)
    (hP : P.OkEdgesFor ok) (hQt : Q top) (hwf : P.icf.WFV) (huniq : P.icf.UniqueStart) (hfr : P.followReturnsPastSeeds = false)
    (hs : SeedsAtStart P) (hsum : SummariesDisjoint P)
    {s : St N D E} {w : VS N D L} (h : Solved P s w) (n : N) (d : D) (l : L)
    (hl : resultAt w n d = some l) (hQ : ∀ x, RunVal P n d x → Q x) : Q l :=
  solved_stays hA hP hQt hwf huniq hfr hs hsum h hl hQ

/-- Instance for C02 and C03: `res` (3) at statement 3 of the recursive example is tagged on the path
through the recursion and clean on the other; the reported value is tagged, and it is the least upper
bound. At statement 2 fact `x` (1) is clean on all paths. -/
example : ∃ s w, Solved exP s w ∧ resultAt w 3 3 = some .tagged ∧ resultAt w 2 1 = some .clean ∧
    IsLub (RunVal exP 3 3) .tagged ∧ IsLub (RunVal exP 2 1) .clean := by
  have h : (solve exP 200).any (fun p => decide (p.2.tab.get (3, 3) = some .tagged) &&
      decide (p.2.tab.get (2, 1) = some .clean)) = true := by decide +kernel
  obtain ⟨⟨s, w⟩, h1, h2⟩ := exists_of_any h
  have hS := solve_sound h1
  simp only [Bool.and_eq_true, decide_eq_true_eq] at h2
  have := fun n d l => C03_lub gkAlg_sound gkAlg_exact exP_ok exP_noTop exICFG_wfv exICFG_unique rfl
    exP_seeds exP_disjoint hS n d l
  exact ⟨s, w, hS, h2.1, h2.2, this _ _ _ h2.1, this _ _ _ h2.2⟩

/-! ## C04 -/

/-- C04: two complete runs of the solver, in whatever processing orders, report the same facts and the
same values. -/
theorem C04_order_independent {P : Problem N D F L E} {ok : E → Prop} (hA : P.alg.Sound ok)
    (hX : P.alg.Exact ok) (hP : P.OkEdges ok) (hnt : P.NoTop ok)
    (hwf : P.icf.WFV) (huniq : P.icf.UniqueStart) (hfr : P.followReturnsPastSeeds = false)
    (hs : SeedsAtStart P) (hsum : SummariesDisjoint P)
    {s s' : St N D E} {w w' : VS N D L} (h : Solved P s w) (h' : Solved P s' w') (n : N) (d : D) :
    resultAt w n d = resultAt w' n d := by
  have key : ∀ {s s' : St N D E} {w w' : VS N D L}, Solved P s w → Solved P s' w' →
      ∀ l, resultAt w n d = some l → resultAt w' n d = some l := by
    intro s s' w w' h h' l hl
    obtain ⟨v, hv⟩ := solved_facts hwf huniq hfr hs hsum h ⟨l, hl⟩
    obtain ⟨_, l', hl'⟩ := solved_sound hA hP hwf hnt hs h' hv
    have h1 := C03_lub hA hX hP hnt hwf huniq hfr hs hsum h n d l hl
    have h2 := C03_lub hA hX hP hnt hwf huniq hfr hs hsum h' n d l' hl'
    rw [h1.unique h2]
    exact hl'
  cases hg : resultAt w n d with
  | some l => exact (key h h' l hg).symm
  | none =>
    cases hg' : resultAt w' n d with
    | none => rfl
    | some l' => rw [key h' h l' hg'] at hg; cases hg

/-- C04 without distributivity: the reported *facts* never depend on the order. -/
theorem C04_facts_order_independent {P : Problem N D F L E} {ok : E → Prop} (hA : P.alg.Sound ok)
    (hP : P.OkEdges ok) (hnt : P.NoTop ok)
    (hwf : P.icf.WFV) (huniq : P.icf.UniqueStart) (hfr : P.followReturnsPastSeeds = false)
    (hs : SeedsAtStart P) (hsum : SummariesDisjoint P)
    {s s' : St N D E} {w w' : VS N D L} (h : Solved P s w) (h' : Solved P s' w') (n : N) (d : D) :
    ifdsResultsAt w n d ↔ ifdsResultsAt w' n d := by
  have key : ∀ {s s' : St N D E} {w w' : VS N D L}, Solved P s w → Solved P s' w' →
      ifdsResultsAt w n d → ifdsResultsAt w' n d := by
    intro s s' w w' h h' hl
    obtain ⟨v, hv⟩ := solved_facts hwf huniq hfr hs hsum h hl
    exact (solved_sound hA hP hwf hnt hs h' hv).2
  exact ⟨key h h', key h' h⟩

/-- Instance: a first-in-first-out prefix and the code's last-in-first-out order on the recursive
example are different schedules (the jump tables list their entries in different order), with equal
results everywhere. -/
example : ∃ s w s' w', Solved exP s w ∧ Solved exP s' w' ∧
    s.jump.map Prod.fst ≠ s'.jump.map Prod.fst ∧ ∀ n d, resultAt w n d = resultAt w' n d := by
  have h : (solve exP 200).any (fun p => (solveWith exP [0, 0, 0, 0, 0, 0, 0, 0, 0, 0] 200).any fun q =>
      decide (p.1.jump.map Prod.fst ≠ q.1.jump.map Prod.fst)) = true := by decide +kernel
  obtain ⟨⟨s, w⟩, h1, h2⟩ := exists_of_any h
  obtain ⟨⟨s', w'⟩, h3, h4⟩ := exists_of_any h2
  have hS := solve_sound h1
  have hS' := solveWith_sound h3
  exact ⟨s, w, s', w', hS, hS', of_decide_eq_true h4,
    C04_order_independent gkAlg_sound gkAlg_exact exP_ok exP_noTop exICFG_wfv exICFG_unique rfl
      exP_seeds exP_disjoint hS hS'⟩

/-! ## C05 -/

/-- C05: for finitely many statements and facts and finite heights, both phases terminate in every
processing order (no infinite sequence of steps from the initial state), so `solve()` returns. -/
theorem C05_terminates {P : Problem N D F L E} {ok : E → Prop} (hok : OkClosed P.alg ok)
    (hP : P.OkEdges ok) (hwf : P.icf.WF) {rankE : E → Nat} {H : Nat}
    (hE : P.alg.FiniteHeight ok rankE H) {rankL : L → Nat} (hL : FiniteHeightL L rankL)
    (NS : List N) (hNS : ∀ n, n ∈ NS) (DS : List D) (hDS : ∀ d, d ∈ DS) :
    Acc (fun t s => SStep P s t) (init P) ∧
    (∀ s, Reach P s → Acc (fun w v => VStep P s v w) (submitInitialValues P s)) ∧
    ∃ fuel s w, solve P fuel = some (s, w) := by
  have h1 : Acc (fun t s => SStep P s t) (init P) := by
    refine phase1_acc hok hP hwf hE
      (DS.flatMap fun d1 => NS.flatMap fun n => DS.map fun d2 => (d1, n, d2)) ?_ .init
    intro s _ p e _
    simp only [List.mem_flatMap, List.mem_map]
    exact ⟨_, hDS _, _, hNS _, _, hDS _, rfl⟩
  have h2 : ∀ s, Reach P s → Acc (fun w v => VStep P s v w) (submitInitialValues P s) := by
    intro s _
    refine phase2_acc hL (NS.flatMap fun n => DS.map fun d => (n, d)) ?_ .init
    intro v _ n d _
    simp only [List.mem_flatMap, List.mem_map]
    exact ⟨_, hNS _, _, hDS _, rfl⟩
  exact ⟨h1, h2, solve_of_acc h1 h2⟩

/-- C05 for an infinite fact domain: it suffices that finitely many (statement, fact) pairs are
reached by realizable runs. -/
theorem C05_terminates_reachable {P : Problem N D F L E} {ok : E → Prop} (hok : OkClosed P.alg ok)
    (hP : P.OkEdges ok) (hwf : P.icf.WFV) (huniq : P.icf.UniqueStart)
    (hfr : P.followReturnsPastSeeds = false) (hs : SeedsAtStart P) (hsum : SummariesDisjoint P)
    {rankE : E → Nat} {H : Nat}
    (hE : P.alg.FiniteHeight ok rankE H) {rankL : L → Nat} (hL : FiniteHeightL L rankL)
    (R : List (N × D)) (hR : ∀ n d, FactReachable P n d → (n, d) ∈ R) :
    Acc (fun t s => SStep P s t) (init P) ∧
    (∀ s, Reach P s → Acc (fun w v => VStep P s v w) (submitInitialValues P s)) ∧
    ∃ fuel s w, solve P fuel = some (s, w) := by
  have hJ := justify_facts (D := D) (L := L) P.alg
  have h1 : Acc (fun t s => SStep P s t) (init P) := by
    refine phase1_acc hok hP hwf.toWF hE
      (R.flatMap fun a => R.map fun b => (a.2, b.1, b.2)) ?_ .init
    intro s hre p e hp
    have hg := goodInv_reach (okEdgesFor_true _) hwf.toWF huniq hfr hs hJ hre
    have hgood := hg.w p e hp
    have h2 := hgood.reachable hJ
    obtain ⟨_, sp, _, h3, _⟩ := hgood
    simp only [List.mem_flatMap, List.mem_map]
    exact ⟨_, hR _ _ (factReachable_iff.1 h3), _, hR _ _ (factReachable_iff.1 h2), rfl⟩
  have h2 : ∀ s, Reach P s → Acc (fun w v => VStep P s v w) (submitInitialValues P s) := by
    intro s hre
    refine phase2_acc hL R ?_ .init
    rintro v hv n d ⟨l, hl⟩
    have hi := inv_reach (okClosed_true _).toFor (okEdges_true _).toFor hwf.toWF hre
    have hg := goodInv_reach (okEdgesFor_true _) hwf.toWF huniq hfr hs hJ hre
    have hp := pInv_vReach ⟨okEdgesFor_true _, hwf, huniq, hfr, hs, hsum, hJ⟩ hi hg
      (unbal_reach hfr hre) hv
    exact hR _ _ (factReachable_iff.1 (hp n d l hl))
  exact ⟨h1, h2, solve_of_acc h1 h2⟩

/-- C05 for value lattices of infinite height: it suffices that the values that occur, `Q`, have finite height.
(Instance: `C74_terminates`, for sets of labels.) -/
theorem C05_terminates_values {P : Problem N D F L E} {ok : E → Prop} (hok : OkClosed P.alg ok)
    (hP : P.OkEdges ok) (hwf : P.icf.WFV) (huniq : P.icf.UniqueStart)
    (hfr : P.followReturnsPastSeeds = false) (hs : SeedsAtStart P) (hsum : SummariesDisjoint P)
    {rankE : E → Nat} {H : Nat} (hE : P.alg.FiniteHeight ok rankE H)
    {okV : D → D → E → Prop} {Q : L → Prop} (hV : P.alg.StaysIn okV Q) (hPV : P.OkEdgesFor okV) (hQt : Q top)
    (hQ : ∀ n d x, RunVal P n d x → Q x)
    {rankL : L → Nat} (hL : ∀ a b : L, Q a → Q b → join a b ≠ a → rankL (join a b) < rankL a)
    (R : List (N × D)) (hR : ∀ n d, FactReachable P n d → (n, d) ∈ R) :
    Acc (fun t s => SStep P s t) (init P) ∧
    (∀ s, Reach P s → Acc (fun w v => VStep P s v w) (submitInitialValues P s)) ∧
    ∃ fuel s w, solve P fuel = some (s, w) := by
  have hJ := justify_facts (D := D) (L := L) P.alg
  have h1 : Acc (fun t s => SStep P s t) (init P) := by
    refine phase1_acc hok hP hwf.toWF hE
      (R.flatMap fun a => R.map fun b => (a.2, b.1, b.2)) ?_ .init
    intro s hre p e hp
    have hg := goodInv_reach (okEdgesFor_true _) hwf.toWF huniq hfr hs hJ hre
    have hgood := hg.w p e hp
    have h2 := hgood.reachable hJ
    obtain ⟨_, sp, _, h3, _⟩ := hgood
    simp only [List.mem_flatMap, List.mem_map]
    exact ⟨_, hR _ _ (factReachable_iff.1 h3), _, hR _ _ (factReachable_iff.1 h2), rfl⟩
  have h2 : ∀ s, Reach P s → Acc (fun w v => VStep P s v w) (submitInitialValues P s) := by
    intro s hre
    have hi := inv_reach (okClosed_true _).toFor (okEdges_true _).toFor hwf.toWF hre
    refine phase2_accOn hL R ?_ ?_ .init
    · rintro v hv n d ⟨l, hl⟩
      have hg := goodInv_reach (okEdgesFor_true _) hwf.toWF huniq hfr hs hJ hre
      have hp := pInv_vReach ⟨okEdgesFor_true _, hwf, huniq, hfr, hs, hsum, hJ⟩ hi hg
        (unbal_reach hfr hre) hv
      exact hR _ _ (factReachable_iff.1 (hp n d l hl))
    · intro v hv n d
      have hg := goodInv_reach hPV hwf.toWF huniq hfr hs (justify_stays hV) hre
      have hp := pInv_vReach ⟨hPV, hwf, huniq, hfr, hs, hsum, justify_stays hV⟩ hi hg (unbal_reach hfr hre) hv
      unfold val
      cases hl : v.tab.get (n, d) with
      | none => exact hQt
      | some l => exact (hp n d l hl).2 (hQ n d)
  exact ⟨h1, h2, solve_of_acc h1 h2⟩

/-- Instance: the recursive example terminates. -/
example : ∃ fuel s w, solve exP fuel = some (s, w) :=
  (C05_terminates gkAlg_sound.okClosed exP_ok exICFG_wfv.toWF gkAlg_finite lab_finite
    (List.finRange 7) List.mem_finRange (List.finRange 4) List.mem_finRange).2.2

/-- Total correctness (C01 with C05): on a finite IFDS problem `solve()` returns and reports exactly the
realizable facts. -/
theorem C05_ifds_total {P : Problem N D F BinaryDomain (EF Empty BinaryDomain)} (hI : IsIFDS P)
    (hwf : P.icf.WFV) (huniq : P.icf.UniqueStart) (hfr : P.followReturnsPastSeeds = false)
    (hs : SeedsAtStart P) (hsum : SummariesDisjoint P)
    (NS : List N) (hNS : ∀ n, n ∈ NS) (DS : List D) (hDS : ∀ d, d ∈ DS) :
    ∃ fuel s w, solve P fuel = some (s, w) ∧
      ∀ n d, ifdsResultsAt w n d ↔ FactReachable P n d := by
  have hA : P.alg.Sound (fun f => f = .id) := by rw [hI.alg]; exact ifdsAlg_sound
  have hE : P.alg.FiniteHeight (fun f => f = .id) (fun _ => 0) 0 := by
    rw [hI.alg]
    exact ⟨fun _ _ => Nat.le_refl _, by rintro e f rfl rfl h; revert h; decide⟩
  have hL : FiniteHeightL BinaryDomain (fun x => x.toNat) := by
    intro a b; cases a <;> cases b <;> decide
  obtain ⟨_, _, fuel, s, w, h⟩ := C05_terminates hA.okClosed hI.okEdges hwf.toWF hE hL NS hNS DS hDS
  exact ⟨fuel, s, w, h, C01_ifds_exact hI hwf huniq hfr hs hsum (solve_sound h)⟩

example : ∃ fuel s w, solve exI fuel = some (s, w) ∧
    ∀ n d, ifdsResultsAt w n d ↔ FactReachable exI n d :=
  C05_ifds_total exI_ifds exICFG_wfv exICFG_unique rfl exI_seeds exI_disjoint
    (List.finRange 7) List.mem_finRange (List.finRange 4) List.mem_finRange

/-! ## C06 -/

/-- C06 (partial): any sequence of completed calls of the stepping API that ends with an empty worklist,
followed by `finalize()`, gives the same solver state and the same result as one `solve()`; and no call
made while there is work left touches an empty worklist, provided the clock advances.
Missing from the full claim: calls made after a cancelled call (see `C06_cancel_on_last_step`). -/
theorem C06_partial {P : Problem N D F L E} :
    (∀ t k s v, Session P (init P) t → t.wl = [] → solve P k = some (s, v) →
      s = t ∧ finalize P k t = some v) ∧
    (∀ (op : ApiOp) s, op.ClockOk → s.wl ≠ [] → op.run P s ≠ .ub) ∧
    ((apiInitialize P).1 = true ↔ (init P).wl ≠ []) ∧
    (∀ s t, apiNext P s = .ret true t → t.wl ≠ []) ∧
    (∀ k s t, s.wl ≠ [] → apiNextN P k s = .ret true t → t.wl ≠ []) := by
  refine ⟨?_, fun op s hc hw => ApiOp.safe hc hw, ?_, ?_, ?_⟩
  · intro t k s v hses hw hsol
    exact opSpec_result hses.spec hw hsol
  · unfold apiInitialize
    cases (init P).wl <;> simp
  · intro s t h
    exact ((apiNext_spec P s).2.1 _ _ h).2.1 rfl
  · intro k s t hw h
    exact ((apiNextN_spec P k s).2.1 _ _ h).2.2 rfl hw

/-- C06 fails: cancellation that arrives during the very step which empties the worklist makes
`continueWithAsyncCancellation` return "cancelled" although solving is complete, and the documented
reaction, continuing, takes an element from the empty worklist (undefined behaviour). This happens for
every problem whose Phase I finishes after at least one step. -/
theorem C06_cancel_on_last_step {P : Problem N D F L E} {k : Nat} {s t : St N D E}
    (h : NextSteps P (k + 1) s t) (hw : t.wl = []) :
    ∃ o, (ApiOp.continueAsync o).run P s = .ret false t ∧
      (∀ j, (ApiOp.continueSolving (j + 1)).run P t = .ub) ∧ ApiOp.next.run P t = .ub := by
  refine ⟨_, continueAsync_cancel_last h hw, fun j => ?_, (apiNext_spec P t).1.2 hw⟩
  have := (apiNext_spec P t).1.2 hw
  simp [ApiOp.run, continueSolving, this]

/-- C06 fails: with a checking interval below one millisecond (rounded to 0) `continueUntil` never makes
progress, whatever the clock says, until it is cancelled. -/
theorem C06_zero_interval_livelock {P : Problem N D F L E} (o : List (Nat × Bool))
    (ho : ∀ p ∈ o, p.1 ≠ 0 ∧ p.2 = false) (s : St N D E) :
    (ApiOp.continueUntil 0 o).run P s = .running s := by
  have key : ∀ (o : List (Nat × Bool)), (∀ p ∈ o, p.1 ≠ 0 ∧ p.2 = false) →
      continueUntilLoop P 0 o 0 s = .running s := by
    intro o
    induction o with
    | nil => intro _; rfl
    | cons p o ih =>
      intro ho
      obtain ⟨h1, h2⟩ := ho p List.mem_cons_self
      simp only [continueUntilLoop, apiNextN, h1, h2, Bool.false_eq_true, if_false, adjust, Nat.zero_mul,
        Nat.zero_div, Nat.mul_zero, Nat.add_zero]
      exact ih fun q hq => ho q (List.mem_cons_of_mem _ hq)
  exact key o ho

/-- C06 fails for any interval: once a batch took so long that the number of iterations is rounded
down to 0, no further work is done. -/
theorem C06_slow_batch_livelock {P : Problem N D F L E} (i k delta : Nat) (hd : delta ≠ 0)
    (hk : k ≤ 2) (hslow : k * i * 1000000 < delta) (o : List (Nat × Bool))
    (ho : ∀ p ∈ o, p.1 ≠ 0 ∧ p.2 = false) (s t : St N D E) (hstep : apiNextN P k s = .ret true t) :
    continueUntilLoop P i ((delta, false) :: o) k s = .running t := by
  have hz : adjust i k delta = 0 := by
    unfold adjust
    rw [Nat.div_eq_of_lt hslow]
    omega
  simp only [continueUntilLoop, hstep, Bool.false_eq_true, if_false, hd, hz]
  have key : ∀ (o : List (Nat × Bool)), (∀ p ∈ o, p.1 ≠ 0 ∧ p.2 = false) →
      continueUntilLoop P i o 0 t = .running t := by
    intro o
    induction o with
    | nil => intro _; rfl
    | cons p o ih =>
      intro ho
      obtain ⟨h1, h2⟩ := ho p List.mem_cons_self
      have : adjust i 0 p.1 = 0 := by simp [adjust]
      simp only [continueUntilLoop, apiNextN, h1, h2, Bool.false_eq_true, if_false, this]
      exact ih fun q hq => ho q (List.mem_cons_of_mem _ hq)
  exact key o ho

/-- C06 fails in the same way for `continueUntil`: a cancellation seen right after the batch that empties the
worklist is reported as "cancelled", and continuing is undefined. -/
theorem C06_cancel_on_last_batch {P : Problem N D F L E} (i delta : Nat) (o : List (Nat × Bool))
    {s t : St N D E} (h : apiNextN P (i * 500) s = .ret false t) :
    (ApiOp.continueUntil i ((delta, true) :: o)).run P s = .ret false t ∧
      (∀ j, (ApiOp.continueSolving (j + 1)).run P t = .ub) ∧ ApiOp.next.run P t = .ub := by
  have hw := ((apiNextN_spec P _ s).2.1 _ _ h).2.1 rfl
  have := (apiNext_spec P t).1.2 hw
  refine ⟨?_, fun j => ?_, this⟩
  · simp [ApiOp.run, continueUntil, continueUntilLoop, h]
  · simp [ApiOp.run, continueSolving, this]

/-- C06 for the interruptible whole-run calls `solveUntil`/`solveWithTimeout` (given that the clock
advances) and `solveWithAsyncCancellation`: they never take from an empty worklist, also without seeds;
when they report success, `finalize()` gives exactly the result of `solve()`; when they are cancelled, the
state is an intermediate state of `solve()`; and they report cancellation only if it was requested. -/
theorem C06_solve {P : Problem N D F L E} (r : Out (St N D E)) (req : Prop)
    (hr : (∃ i c0 o, (∀ p ∈ o, p.1 ≠ 0) ∧ r = solveUntil P i c0 o ∧
        (req ↔ c0 = true ∨ ∃ p ∈ o, p.2 = true)) ∨
      (∃ c0 o, r = solveAsync P c0 o ∧ (req ↔ c0 = true ∨ true ∈ o))) :
    r ≠ .ub ∧
    (∀ t, r = .ret true t → t.wl = [] ∧ ∀ k s v, solve P k = some (s, v) → s = t ∧ finalize P k t = some v) ∧
    (∀ b t, r = .ret b t → ∃ k, NextSteps P k (init P) t) ∧
    (∀ t, r = .ret false t → req) := by
  have key : EntrySpec P r ∧ (∀ t, r = .ret false t → req) := by
    rcases hr with ⟨i, c0, o, ho, rfl, hq⟩ | ⟨c0, o, rfl, hq⟩
    · refine ⟨solveUntil_spec i c0 o ho, fun t h => hq.2 ?_⟩
      unfold solveUntil at h
      dsimp only at h
      by_cases hc : c0 = true
      · exact .inl hc
      · rw [if_neg hc] at h
        split at h
        · exact .inr (continueUntilLoop_false _ _ _ _ _ h)
        · cases h
    · refine ⟨solveAsync_spec c0 o, fun t h => hq.2 ?_⟩
      unfold solveAsync at h
      dsimp only at h
      by_cases hc : c0 = true
      · exact .inl hc
      · rw [if_neg hc] at h
        split at h
        · exact .inr (continueAsync_false _ _ _ h)
        · cases h
  obtain ⟨h1, h2⟩ := key
  exact ⟨h1.safe, fun t h => ⟨h1.done t h, fun k s v hs => opSpec_result (h1.ret _ _ h) (h1.done t h) hs⟩,
    h1.ret, h2⟩

/-- Instance: cancelled after the third step, and run to the end. -/
example : (∃ t, solveAsync exI false [false, false, true] = .ret false t ∧ t.wl ≠ []) ∧
    (∃ t, solveAsync exI false (List.replicate 100 false) = .ret true t ∧ t.wl = []) := by
  have h : (match solveAsync exI false [false, false, true] with
    | .ret false s1 => !s1.wl.isEmpty | _ => false) = true := by decide +kernel
  have h' : (match solveAsync exI false (List.replicate 100 false) with
    | .ret true s1 => s1.wl.isEmpty | _ => false) = true := by decide +kernel
  revert h h'
  split
  · split
    · rename_i h1 _ _ h2
      intro a b
      exact ⟨⟨_, h1, by simpa using a⟩, ⟨_, h2, by simpa using b⟩⟩
    · intro _ h; cases h
  · intro h; cases h

/-- Instance: on the IFDS example a session of `next()`, `nextN(3)` and `continueSolving()` ends with an
empty worklist. -/
example : ∃ t, Session exI (init exI) t ∧ t.wl = [] := by
  have h : (match ApiOp.next.run exI (init exI) with
    | .ret true s1 => match (ApiOp.nextN 3).run exI s1 with
      | .ret true s2 => match (ApiOp.continueSolving 100).run exI s2 with
        | .ret _ s3 => s3.wl.isEmpty
        | _ => false
      | _ => false
    | _ => false) = true := by decide +kernel
  revert h
  split
  · split
    · split
      · rename_i h1 _ _ h2 _ _ _ h3
        intro hw
        exact ⟨_, .call _ _ h1 (.call _ _ h2 (.call _ _ h3 (.nil _))), by simpa using hw⟩
      · intro h; cases h
    · intro h; cases h
  · intro h; cases h

/-! ## C07 -/

/-- C07: after any mix of stepping calls, every fact the solver holds a jump function for is reached by a
realizable run. -/
theorem C07_intermediate {P : Problem N D F L E} (hwf : P.icf.WF) (huniq : P.icf.UniqueStart)
    (hfr : P.followReturnsPastSeeds = false) (hs : SeedsAtStart P) {t : St N D E}
    (h : Session P (init P) t) (d1 : D) (n : N) (d2 : D) (e : E)
    (hj : t.jump.get (d1, n, d2) = some e) : FactReachable P n d2 := by
  have hJ := justify_facts (D := D) (L := L) P.alg
  have hg := goodInv_reach (okEdgesFor_true _) hwf huniq hfr hs hJ h.reach
  exact factReachable_iff.1 ((hg.j _ _ _ _ hj).reachable hJ)

/-- C07 in the other processing orders. -/
theorem C07_any_order {P : Problem N D F L E} (hwf : P.icf.WF) (huniq : P.icf.UniqueStart)
    (hfr : P.followReturnsPastSeeds = false) (hs : SeedsAtStart P) {t : St N D E}
    (h : Reach P t) (d1 : D) (n : N) (d2 : D) (e : E)
    (hj : t.jump.get (d1, n, d2) = some e) : FactReachable P n d2 := by
  have hJ := justify_facts (D := D) (L := L) P.alg
  have hg := goodInv_reach (okEdgesFor_true _) hwf huniq hfr hs hJ h
  exact factReachable_iff.1 ((hg.j _ _ _ _ hj).reachable hJ)

/-- Instance: after 3 steps of the IFDS example there is work left and `x` (1) is known at statement 1. -/
example : ∃ t e, Session exI (init exI) t ∧ t.wl ≠ [] ∧ t.jump.get (0, 1, 1) = some e ∧
    FactReachable exI 1 1 := by
  have h : (match (ApiOp.nextN 3).run exI (init exI) with
    | .ret true t => !t.wl.isEmpty && (t.jump.get (0, 1, 1)).isSome
    | _ => false) = true := by decide +kernel
  revert h
  split
  · rename_i t h1
    intro h
    simp only [Bool.and_eq_true, Option.isSome_iff_exists] at h
    obtain ⟨h2, e, h3⟩ := h
    have hS : Session exI (init exI) t := .call _ _ h1 (.nil _)
    refine ⟨t, e, hS, ?_, h3, C07_intermediate exICFG_wfv.toWF exICFG_unique rfl exI_seeds hS _ _ _ _ h3⟩
    intro hw; simp [hw] at h2
  · intro h; cases h

/-! ## C08 -/

/-- C08: with `autoAddZero`, the zero fact is reported at every statement control can reach from a
seeded statement, whatever the user's flow functions do with it. -/
theorem C08_zero_everywhere {P : Problem N D F L E} {ok : E → Prop} (hA : P.alg.Sound ok)
    (hP : (autoZero P).OkEdges ok) (hwf : P.icf.WFV) (hnt : P.NoTop ok) (hs : SeedsAtStart P)
    {s : St N D E} {w : VS N D L} (h : Solved (autoZero P) s w) (n : N)
    (hr : ControlReachable P n) : ifdsResultsAt w n P.zero := by
  obtain ⟨v, hv⟩ := factReachable_iff.2 (zero_reachable hr)
  exact (solved_sound (P := autoZero P) hA hP hwf ⟨hnt.seed, hnt.ap⟩ hs h hv).2

/-- Instance: flow functions that drop zero everywhere; control reaches the exit of `foo`. -/
example : ∃ s w, Solved (autoZero exZ) s w ∧ ifdsResultsAt w 6 0 ∧ FactReachable exZ 1 1 ∧
    ¬ FactReachable exZ 6 0 := by
  obtain ⟨fuel, s, w, h⟩ := (C05_terminates (P := autoZero exZ) ifdsAlg_sound.okClosed exZ_ifds.okEdges
    exICFG_wfv.toWF (rankE := fun _ => 0) (H := 0)
    ⟨fun _ _ => Nat.le_refl _, by rintro e f rfl rfl h; revert h; decide⟩
    (rankL := fun x => x.toNat) (by intro a b; cases a <;> cases b <;> decide)
    (List.finRange 7) List.mem_finRange (List.finRange 4) List.mem_finRange).2.2
  have hS := solve_sound h
  refine ⟨s, w, hS, ?_, ?_, ?_⟩
  · refine C08_zero_everywhere (P := exZ) ifdsAlg_sound exZ_ifds.okEdges exICFG_wfv
      ⟨exZ_ifds.noTop.seed, exZ_ifds.noTop.ap⟩ exI_seeds hS 6 ?_
    refine ⟨0, _, [1], List.mem_singleton.2 rfl, ?_⟩
    exact .tail (.tail (.tail (.refl _) (.normal (n := 0) (n' := 1) (by decide) (by decide)))
      (.call (n := 1) (g := 1) (sp := 4) (by decide) (by decide) (by decide) (by decide)))
      (.normal (n := 4) (n' := 6) (by decide) (by decide))
  · exact ⟨0, 0, [], ⟨_, List.mem_singleton.2 rfl, .inr rfl⟩,
      .tail (.refl _) (.normal (n := 0) (n' := 1) (by decide) (by decide) (by decide))⟩
  · rintro ⟨n0, d0, stk, ⟨facts, hf, _⟩, hr⟩
    simp only [exZ, exI, List.mem_singleton, Prod.mk.injEq] at hf
    cases hr with
    | refl => exact absurd hf.1 (by decide)
    | tail _ h =>
      cases h with
      | normal _ _ h => simp [exZ] at h
      | call _ _ _ _ h => simp [exZ] at h
      | ret _ _ _ h => simp [exZ] at h
      | callToRet _ _ h => simp [exZ] at h
      | summary _ _ h => simp [exZ, exI, exP] at h

/-! ## C09 -/

/-- C09 fails: with `followReturnsPastSeeds`, whether the caller outside the seeded region (`main2`,
statement 5, return site 6) gets the fact that leaves `foo` depends on the processing order: it does
when `foo` is processed before `main1`'s call reaches it, and does not otherwise. Fact 1 is a seed of
`foo` (statement 3), runs to its exit 4 and is mapped to fact 1 at return site 6 of caller 5. -/
theorem C09_order_dependent :
    IsSeed (unbP true) 3 1 .BOTTOM ∧
    RSteps (unbP true) ⟨[], 3, 1, .BOTTOM⟩ ⟨[], 4, 1, .BOTTOM⟩ ∧
    (unbP true).icf.isExit 4 = true ∧ 5 ∈ (unbP true).icf.callers ((unbP true).icf.funOf 4) ∧
    6 ∈ (unbP true).icf.retSites 5 ∧ 1 ∈ (unbP true).retFlow 5 1 4 6 1 ∧
    ∃ s w s' w', Solved (unbP true) s w ∧ Solved (unbP true) s' w' ∧
      ifdsResultsAt w 6 1 ∧ ¬ ifdsResultsAt w' 6 1 := by
  refine ⟨⟨_, List.mem_cons_self, .inl List.mem_cons_self⟩, ?_, rfl, by decide, by decide, by decide, ?_⟩
  · exact .tail (.refl _) (.normal (n := 3) (n' := 4) (d' := 1) (by decide) (by decide) (by decide))
  · have h : ((solveWith (unbP true) [0, 2] 100).any fun p => (solve (unbP true) 100).any fun q =>
      decide (p.2.tab.get (6, 1) ≠ none) && decide (q.2.tab.get (6, 1) = none)) = true := by
      decide +kernel
    obtain ⟨⟨s, w⟩, h1, h2⟩ := exists_of_any h
    obtain ⟨⟨s', w'⟩, h3, h4⟩ := exists_of_any h2
    simp only [Bool.and_eq_true, decide_eq_true_eq] at h4
    refine ⟨s, w, s', w', solveWith_sound h1, solve_sound h3, ?_, ?_⟩
    · exact Option.ne_none_iff_exists'.1 h4.1
    · rintro ⟨l, hl⟩
      rw [h4.2] at hl
      cases hl

/-- C09 (partial): when no analysed call passes a seeded fact of the seeded function back into it, a fact
leaving the function is carried to the return sites of *every* caller: the jump function there, applied
to a seed value, covers the value of the run, and the fact is reported. Missing: the case above, and the
value itself (Phase II combines the jump function with the value of the zero fact at the start of the
caller, which stays Top when the caller is not seeded: `C09_value_lost`). -/
theorem C09_partial {P : Problem N D F L E} {ok : E → Prop}
    (hA : P.alg.Sound ok) (hm : P.Regular ok) (hP : P.OkEdges ok) (hwf : P.icf.WFV)
    (hfr : P.followReturnsPastSeeds = true) {s : St N D E} {w : VS N D L} (h : Solved P s w)
    {n0 : N} {d0 : D} {v0 : L} (h0 : IsSeed P n0 d0 v0) {n : N} {d : D} {x : L}
    (hrun : RSteps P ⟨[], n0, d0, v0⟩ ⟨[], n, d, x⟩)
    (hnc : P.icf.isCall n = false) (hex : P.icf.isExit n = true)
    (hno : ∀ n1 d1 v1, IsSeed P n1 d1 v1 → P.icf.funOf n1 = P.icf.funOf n →
      ∀ c d' d2 e, s.jump.get (d', c, d2) = some e → P.icf.isCall c = true →
        P.icf.funOf n ∈ P.icf.callees c → P.summaryFlow c (P.icf.funOf n) = none →
        d1 ∉ P.callFlow c (P.icf.funOf n) d2)
    {c r : N} {d5 : D} (hc : c ∈ P.icf.callers (P.icf.funOf n)) (hr : r ∈ P.icf.retSites c)
    (hd5 : d5 ∈ P.retFlow c (P.icf.funOf n) n r d) :
    (∃ e n1 d1 v1, s.jump.get (P.zero, r, d5) = some e ∧ IsSeed P n1 d1 v1 ∧
      P.icf.funOf n1 = P.icf.funOf n0 ∧
      P.alg.ap (P.retEdge c (P.icf.funOf n) n d r d5) x ⊑ P.alg.ap e v1) ∧
    (r ∈ P.icf.nonCallStart → P.icf.starts (P.icf.funOf r) ≠ [] → Stored w r d5) :=
  solved_unbalanced hA hm hP hwf hfr h h0 hrun hnc hex hno hc hr hd5

/-- C09 (partial), values below the return sites: they are treated like seeds of the zero fact with no
information. What the jump functions from there generate at the call sites of the caller (constants, for
which the missing start value does not matter) reaches those call sites and the start points of the
functions called there. Missing: as in `C09_partial`. -/
theorem C09_calls_partial {P : Problem N D F L E} {ok : E → Prop}
    (hA : P.alg.Sound ok) (hmt : P.alg.MonoTop ok) (hP : P.OkEdges ok) (hwf : P.icf.WFV)
    (hfr : P.followReturnsPastSeeds = true) {s : St N D E} {w : VS N D L} (h : Solved P s w)
    {n0 : N} {d0 : D} {v0 : L} (h0 : IsSeed P n0 d0 v0) {n : N} {d : D} {x : L}
    (hrun : RSteps P ⟨[], n0, d0, v0⟩ ⟨[], n, d, x⟩)
    (hnc : P.icf.isCall n = false) (hex : P.icf.isExit n = true)
    (hno : ∀ n1 d1 v1, IsSeed P n1 d1 v1 → P.icf.funOf n1 = P.icf.funOf n →
      ∀ c d' d2 e, s.jump.get (d', c, d2) = some e → P.icf.isCall c = true →
        P.icf.funOf n ∈ P.icf.callees c → P.summaryFlow c (P.icf.funOf n) = none →
        d1 ∉ P.callFlow c (P.icf.funOf n) d2)
    {c r : N} {d5 : D} (hc : c ∈ P.icf.callers (P.icf.funOf n)) (hr : r ∈ P.icf.retSites c)
    (hd5 : d5 ∈ P.retFlow c (P.icf.funOf n) n r d)
    {c' : N} {d' : D} {e : E} (hcall : P.icf.isCall c' = true)
    (hfun : P.icf.funOf c' = P.icf.funOf r) (hj : s.jump.get (P.zero, c', d') = some e) :
    P.alg.ap e top ⊑ val w c' d' ∧
    (P.alg.ap e top ≠ top → ∀ g ∈ P.icf.callees c', ∀ d'' ∈ P.callFlow c' g d',
      ∀ sp ∈ P.icf.starts g, P.alg.ap (P.callEdge c' d' g d'') (P.alg.ap e top) ⊑ val w sp d'') :=
  solved_unbalanced_calls hA hmt hP hwf hfr h h0 hrun hnc hex hno hc hr hd5 hcall hfun hj

/-- Instance: `foo` returns into the unseeded `main`, whose next call passes the tagged fact to `bar`. -/
example : ∃ s w, Solved unbC s w ∧ Lab.tagged ⊑ val w 3 1 ∧ Lab.tagged ⊑ val w 5 1 := by
  have h : (solve unbC 100).any (fun p => (p.1.jump.all fun q => decide (q.1.2.1 ≠ 2)) &&
      decide (p.1.jump.get (0, 3, 1) = some .tag)) = true := by decide +kernel
  obtain ⟨⟨s, w⟩, h1, h2⟩ := exists_of_any h
  simp only [Bool.and_eq_true, decide_eq_true_eq] at h2
  have hS := solve_sound h1
  have key := C09_calls_partial (P := unbC) (n0 := 0) (d0 := 1) (v0 := .clean) (n := 1)
    (d := 1) (x := .clean) (c := 2) (r := 3) (d5 := 1) (c' := 3) (d' := 1) (e := .tag)
    (ok := fun f => f ≠ .allTop) ctAlg_sound (by intro f _ y; cases f <;> cases y <;> decide) unbC_ok unbC_wfv rfl hS
    ⟨_, List.mem_cons_self, .inl List.mem_cons_self⟩
    (.tail (.refl _) (.normal (n := 0) (n' := 1) (d' := 1) (by decide) (by decide) (by decide)))
    rfl rfl (by
      intro n1 d1 v1 _ _ c d' d2 e hj hcall hg _ _
      have := of_decide_eq_true (List.all_eq_true.1 h2.1 _ (AMap.mem_of_get hj))
      have hc : ∀ c : Fin 6, unbC.icf.isCall c = true → unbC.icf.funOf 1 ∈ unbC.icf.callees c → c = 2 := by
        decide
      exact this (hc _ hcall hg)) (by decide) (by decide) (by decide) rfl rfl h2.2
  exact ⟨s, w, hS, key.1, key.2 (by decide) 2 (by decide) 1 (by decide) 5 (by decide)⟩

/-- C09 fails for values: in the IFDS problem every value is BOTTOM, but at the return sites of both
callers the solver stores TOP for the fact that leaves `foo`. -/
theorem C09_value_lost : ∃ s w, Solved (unbP false) s w ∧
    resultAt w 2 1 = some .TOP ∧ resultAt w 6 1 = some .TOP := by
  have h : (solve (unbP false) 100).any (fun p => decide (p.2.tab.get (2, 1) = some .TOP) &&
      decide (p.2.tab.get (6, 1) = some .TOP)) = true := by decide +kernel
  obtain ⟨⟨s, w⟩, h1, h2⟩ := exists_of_any h
  simp only [Bool.and_eq_true, decide_eq_true_eq] at h2
  exact ⟨s, w, solve_sound h1, h2.1, h2.2⟩

/-- Instance: without the seed in `main1`, fact 1 is reported at the return sites of both callers. -/
example : ∃ s w, Solved (unbP false) s w ∧ ifdsResultsAt w 2 1 ∧ ifdsResultsAt w 6 1 := by
  have h : (solve (unbP false) 100).any (fun p => p.1.jump.all fun q =>
      decide (q.1.2.1 = 1 ∨ q.1.2.1 = 5 → False)) = true := by decide +kernel
  obtain ⟨⟨s, w⟩, h1, h2⟩ := exists_of_any h
  have hS := solve_sound h1
  have key := fun c r hc hr hd => (C09_partial (P := unbP false) (n0 := 3) (d0 := 1) (v0 := .BOTTOM) (n := 4)
    (d := 1) (x := .BOTTOM) (c := c) (r := r) (d5 := 1) (ok := fun f => f = .id) ifdsAlg_sound
    (.inl (unbP_ifds false).noTop) (unbP_ifds false).okEdges unbICFG_wfv rfl hS
    ⟨_, List.mem_cons_self, .inl List.mem_cons_self⟩
    (.tail (.refl _) (.normal (n := 3) (n' := 4) (d' := 1) (by decide) (by decide) (by decide)))
    rfl rfl (by
      intro n1 d1 v1 _ _ c d' d2 e hj hcall _ _ _
      have := List.all_eq_true.1 h2 _ (AMap.mem_of_get hj)
      have hc : ∀ c : Fin 7, unbICFG.isCall c = true → c = 1 ∨ c = 5 := by decide
      exact of_decide_eq_true this (hc _ hcall)) hc hr hd).2
  exact ⟨s, w, hS, key 1 2 (by decide) (by decide) (by decide) (by decide) (by decide),
    key 5 6 (by decide) (by decide) (by decide) (by decide) (by decide)⟩

/-! ## C10 -/

/-- C10, Phase I: when every call of `g` has a summary and `g` holds no seed, the solver never has a jump
function inside `g`, at any point of any processing order. -/
theorem C10_phase1 {P : Problem N D F L E} (hwf : P.icf.WF) (huniq : P.icf.UniqueStart)
    (hfr : P.followReturnsPastSeeds = false) (hs : SeedsAtStart P) {g : F}
    (hsum : ∀ c, P.icf.isCall c = true → g ∈ P.icf.callees c → P.summaryFlow c g ≠ none)
    (hseed : ∀ n facts, (n, facts) ∈ P.seeds → P.icf.funOf n ≠ g)
    {t : St N D E} (h : Reach P t) (d1 : D) (n : N) (d2 : D) (e : E)
    (hj : t.jump.get (d1, n, d2) = some e) : P.icf.funOf n ≠ g :=
  Reachable.outside (L := L) hwf hsum hseed
    (factReachable_iff.2 (C07_any_order hwf huniq hfr hs h d1 n d2 e hj))

/-- C10, effect of the summary: the value a summary gives at the return site is below the result, i.e. a
summary is used at every call that has one. (A corollary of C02 for the one step.) -/
theorem C10_summary_applied {P : Problem N D F L E} {ok : E → Prop} (hA : P.alg.Sound ok)
    (hP : P.OkEdges ok) (hwf : P.icf.WFV) (hnt : P.NoTop ok) (hs : SeedsAtStart P)
    {s : St N D E} {w : VS N D L} (h : Solved P s w) {n : N} {d : D} {x : L} (hr : RunVal P n d x)
    (hcall : P.icf.isCall n = true) {g : F} (hg : g ∈ P.icf.callees n) {sm : D → List D}
    (hsm : P.summaryFlow n g = some sm) {r : N} (hrs : r ∈ P.icf.retSites n) {d' : D}
    (hd' : d' ∈ sm d) : ∃ l, resultAt w r d' = some l ∧ P.alg.ap (P.sumEdge n d r d') x ⊑ l := by
  obtain ⟨n0, d0, v0, stk, h0, hrun⟩ := hr
  exact C02_sound hA hP hwf hnt hs h r d' _ ⟨n0, d0, v0, stk, h0, .tail hrun (.summary hcall hg hsm hrs hd')⟩

/-- C10 fails in Phase II: `propagateValueAtCall` does not look at summaries, so values are stored at
the start of a callee that is summarised at every call (statement 4, facts `p` = 2 and zero), although
no run enters it. -/
theorem C10_phase2_enters_callee :
    (∀ c, sumP.icf.isCall c = true → 1 ∈ sumP.icf.callees c → sumP.summaryFlow c 1 ≠ none) ∧
    (∀ d, ¬ FactReachable sumP 4 d) ∧
    ∃ s w, Solved sumP s w ∧ ifdsResultsAt w 4 2 ∧ ifdsResultsAt w 4 0 := by
  refine ⟨by simp [sumP], ?_, ?_⟩
  · intro d hd
    refine Reachable.outside (P := sumP) (g := 1) exICFG_wfv.toWF (by simp [sumP]) ?_
      (factReachable_iff.2 hd) (by decide)
    intro n facts h
    simp only [sumP, exP, List.mem_singleton, Prod.mk.injEq] at h
    rw [h.1]; decide
  · have h : (solve sumP 100).any (fun p => decide (p.2.tab.get (4, 2) ≠ none) &&
      decide (p.2.tab.get (4, 0) ≠ none)) = true := by decide +kernel
    obtain ⟨⟨s, w⟩, h1, h2⟩ := exists_of_any h
    simp only [Bool.and_eq_true, decide_eq_true_eq] at h2
    exact ⟨s, w, solve_sound h1, Option.ne_none_iff_exists'.1 h2.1, Option.ne_none_iff_exists'.1 h2.2⟩

/-- C10 (partial): if the call flow function of every summarised call is empty, no result is stored in
a function that is only called through summaries. Missing: calls whose call flow function is not empty
(`C10_phase2_enters_callee`). -/
theorem C10_partial {P : Problem N D F L E} (hwf : P.icf.WFV) (huniq : P.icf.UniqueStart)
    (hfr : P.followReturnsPastSeeds = false) (hs : SeedsAtStart P) (hdis : SummariesDisjoint P) {g : F}
    (hsum : ∀ c, P.icf.isCall c = true → g ∈ P.icf.callees c → P.summaryFlow c g ≠ none)
    (hseed : ∀ n facts, (n, facts) ∈ P.seeds → P.icf.funOf n ≠ g)
    {s : St N D E} {w : VS N D L} (h : Solved P s w) (n : N) (d : D) (hst : ifdsResultsAt w n d) :
    P.icf.funOf n ≠ g :=
  Reachable.outside hwf.toWF hsum hseed (solved_facts hwf huniq hfr hs hdis h hst)

/-- Instance: the summary maps `x` (1) to `res` (3); the value at the return site is clean, and nothing
is stored in `foo`. -/
example : ∃ s w, Solved sumP' s w ∧ resultAt w 2 3 = some .clean ∧
    ∀ n d, ifdsResultsAt w n d → sumP'.icf.funOf n ≠ 1 := by
  have h : (solve sumP' 100).any (fun p => decide (p.2.tab.get (2, 3) = some .clean)) = true := by
    decide +kernel
  obtain ⟨⟨s, w⟩, h1, h2⟩ := exists_of_any h
  refine ⟨s, w, solve_sound h1, of_decide_eq_true h2, C10_partial (P := sumP') exICFG_wfv exICFG_unique rfl
    exP_seeds (fun _ _ _ _ _ => .inr fun _ => rfl) (by simp [sumP', sumP]) ?_ (solve_sound h1)⟩
  intro n facts h
  simp only [sumP', sumP, exP, List.mem_singleton, Prod.mk.injEq] at h
  rw [h.1]; decide

/-! ## C11 -/

/-- C11 fails for values: a value seeded in the middle of a function is lost on the way. Statement 1 is
seeded with fact 1 = tagged, one identity step leads to statement 2, and the solver reports Top there. -/
theorem C11_value_lost :
    IsSeed midP 1 1 .tagged ∧ RunVal midP 2 1 .tagged ∧
    ∃ s w, Solved midP s w ∧ resultAt w 2 1 = some top ∧ ¬ (Lab.tagged ⊑ (top : Lab)) := by
  have h0 : IsSeed midP 1 1 .tagged := ⟨_, List.mem_cons_self, .inl List.mem_cons_self⟩
  refine ⟨h0, ⟨1, 1, .tagged, [], h0, ?_⟩, ?_⟩
  · exact .tail (.refl _) (.normal (n := 1) (n' := 2) (d' := 1) (by decide) (by decide) (by decide))
  · have h : (solve midP 100).any (fun p => decide (p.2.tab.get (2, 1) = some top)) = true := by
      decide +kernel
    obtain ⟨⟨s, w⟩, h1, h2⟩ := exists_of_any h
    exact ⟨s, w, solve_sound h1, of_decide_eq_true h2, by decide⟩

/-- C11 fails for facts: a fact seeded in the middle of a function is returned to a caller whose own copy
of the fact was killed before that statement, so a fact without any realizable run is reported. -/
theorem C11_spurious_fact :
    ¬ FactReachable midQ 2 1 ∧ ∃ s w, Solved midQ s w ∧ ifdsResultsAt w 2 1 := by
  refine ⟨?_, ?_⟩
  · exact not_factReachable [([], 0, 0), ([], 0, 1), ([], 1, 0), ([], 1, 1), ([], 2, 0), ([1], 3, 0),
      ([1], 3, 1), ([1], 4, 0), ([1], 5, 0), ([], 4, 0), ([], 4, 1), ([], 5, 0), ([], 5, 1)]
      (by decide +kernel) (by decide +kernel) (by decide +kernel)
  · have h : (solve midQ 100).any (fun p => decide (p.2.tab.get (2, 1) ≠ none)) = true := by
      decide +kernel
    obtain ⟨⟨s, w⟩, h1, h2⟩ := exists_of_any h
    exact ⟨s, w, solve_sound h1, Option.ne_none_iff_exists'.1 (of_decide_eq_true h2)⟩

/-- C11 (partial): with seeds at arbitrary statements, every fact of a realizable run is reported at
every statement other than a start point, the value is covered at call statements and at the seeded
statement itself. Missing: the value at the other statements of the seeded function
(`C11_value_lost`), and precision (`C11_spurious_fact`). -/
theorem C11_partial {P : Problem N D F L E} {ok : E → Prop}
    (hA : P.alg.Sound ok) (hP : P.OkEdges ok) (hwf : P.icf.WFV) (hnt : P.NoTop ok)
    (hst : ∀ n, P.icf.starts (P.icf.funOf n) ≠ [])
    {s : St N D E} {w : VS N D L} (h : Solved P s w) {n : N} {d : D} {x : L} :
    (RunVal P n d x → P.icf.isStart n = false → ifdsResultsAt w n d) ∧
    (RunVal P n d x → P.icf.isCall n = true → ∃ l, resultAt w n d = some l ∧ x ⊑ l) ∧
    (IsSeed P n d x → ∃ l, resultAt w n d = some l ∧ x ⊑ l) := by
  refine ⟨fun hr hs => (solved_stored_any_seed hA hP hwf hnt hst h hr).1 hs, fun hr hc => ?_, fun h0 => ?_⟩
  · exact stored_of_le_val ((solved_stored_any_seed hA hP hwf hnt hst h hr).2 hc) (run_ne_top hP hnt hr)
  · exact stored_of_le_val (solved_seed_val hA hP hwf h h0) (hnt.seed _ _ _ h0)

/-- Instance: the mid-function seed is reported at its own statement and one step later. -/
example : ∃ s w, Solved midP s w ∧ ifdsResultsAt w 2 1 ∧ ∃ l, resultAt w 1 1 = some l ∧ .tagged ⊑ l := by
  obtain ⟨h0, hr, s, w, hS, _⟩ := C11_value_lost
  have h := fun n d x => C11_partial (n := n) (d := d) (x := x) gkAlg_sound midP_ok midP_wfv midP_noTop
    (by decide) hS
  exact ⟨s, w, hS, (h 2 1 .tagged).1 hr rfl, (h 1 1 .tagged).2.2 h0⟩

end
end Phasar.IDE
