import Verif.IDE.Unbalanced
import Verif.IDE.Examples
import Verif.IDE.Phase2Prec
/-!
# Helper lemmas for the solver properties
-/
set_option linter.unusedSectionVars false
namespace Phasar.IDE
open Phasar JoinLat

section
variable {N D F L E : Type} [DecidableEq N] [DecidableEq D] [JoinLat L]

/-! ## Termination -/

theorem solve_of_acc [DecidableEq L] {P : Problem N D F L E}
    (h1 : Acc (fun t s => SStep P s t) (init P))
    (h2 : ∀ s, Reach P s → Acc (fun w v => VStep P s v w) (submitInitialValues P s)) :
    ∃ fuel s w, solve P fuel = some (s, w) := by
  obtain ⟨k1, s, hk1, hs, _⟩ := runPhase1_of_acc h1 .init
  obtain ⟨k2, v, hk2, _, _⟩ := runPhase2_of_acc (h2 s hs) .init
  refine ⟨k1 + k2, s, valueComputationTask P s.jump v, ?_⟩
  unfold solve
  have e1 := runPhase1_mono hk1 k2
  have e2 := runPhase2_mono hk2 k1
  rw [Nat.add_comm k2 k1] at e2
  simp [e1, e2]

/-! ## API -/

theorem doNext_reach {P : Problem N D F L E} {s t : St N D E} (hs : Reach P s)
    (h : doNext P s = some t) : Reach P t := by
  unfold doNext at h
  split at h
  · cases h
  · rename_i x hl
    cases h
    obtain ⟨ys, hys⟩ := List.getLast?_eq_some_iff.1 hl
    have hstep : SStep P s (propagate P { s with wl := s.wl.dropLast } x.1 x.2) := by
      have : s.wl.dropLast = ys ++ [] := by rw [hys]; simp
      rw [this]
      exact .take s ys [] x hys
    exact .step hs hstep

theorem NextSteps.reach {P : Problem N D F L E} {k : Nat} {s t : St N D E}
    (h : NextSteps P k s t) (hs : Reach P s) : Reach P t := by
  induction h with
  | refl => exact hs
  | head hd _ ih => exact ih (doNext_reach hs hd)

theorem Session.reach {P : Problem N D F L E} {t : St N D E}
    (h : Session P (init P) t) : Reach P t := by
  obtain ⟨k, hk⟩ := h.spec
  exact hk.reach .init

/-- Cancelling at the very step that empties the worklist. -/
theorem continueAsync_cancel_last {P : Problem N D F L E} {k : Nat} {s t : St N D E}
    (h : NextSteps P (k + 1) s t) (hw : t.wl = []) :
    continueAsync P (List.replicate k false ++ [true]) s = .ret false t := by
  induction k generalizing s with
  | zero =>
    cases h with
    | head hd h2 =>
      cases h2
      simp [continueAsync, apiNext, hd, hw]
  | succ k ih =>
    cases h with
    | @head _ _ u _ hd h2 =>
      have hne : u.wl.isEmpty = false := by
        cases h2 with
        | head hd2 _ =>
          cases hu : u.wl with
          | nil => simp [doNext, hu] at hd2
          | cons _ _ => rfl
      simp only [List.replicate_succ, List.cons_append, continueAsync, apiNext, hd, hne, Bool.not_false,
        Bool.false_eq_true, if_false]
      exact ih h2

/-- Phase I is deterministic: a state with empty worklist reached by `doNext` is the one `solve` ends in. -/
theorem opSpec_result [DecidableEq L] {P : Problem N D F L E} {t : St N D E} (h : OpSpec P (init P) t)
    (hw : t.wl = []) {k : Nat} {s : St N D E} {v : VS N D L} (hsol : solve P k = some (s, v)) :
    s = t ∧ finalize P k t = some v := by
  obtain ⟨j, hj⟩ := h
  have h1 := nextSteps_run hj hw
  rw [solve_eq] at hsol
  cases h2 : runPhase1 P k (init P) with
  | none => simp [h2] at hsol
  | some s' =>
    have h3 := runPhase1_mono h1 k
    have h4 := runPhase1_mono h2 j
    rw [Nat.add_comm] at h4
    rw [h3] at h4
    cases h4
    simp only [h2, Option.bind_some, Option.map_eq_some_iff, Prod.mk.injEq] at hsol
    obtain ⟨v', h5, rfl, rfl⟩ := hsol
    exact ⟨rfl, h5⟩

/-- The whole-run calls: what they guarantee from `initialize()` on. -/
structure EntrySpec (P : Problem N D F L E) (r : Out (St N D E)) : Prop where
  safe : r ≠ .ub
  ret : ∀ b t, r = .ret b t → OpSpec P (init P) t
  done : ∀ t, r = .ret true t → t.wl = []

theorem solveUntil_spec {P : Problem N D F L E} (i : Nat) (c0 : Bool) (o : List (Nat × Bool))
    (ho : ∀ p ∈ o, p.1 ≠ 0) : EntrySpec P (solveUntil P i c0 o) := by
  have h := continueUntilLoop_spec P i o ho (i * 500) (init P)
  unfold solveUntil apiInitialize
  dsimp only
  by_cases hc0 : c0 = true
  · rw [if_pos hc0]
    exact ⟨(by intro h; cases h), (by intro b t h; cases h; exact ⟨0, .refl _⟩), (by intro t h; cases h)⟩
  · rw [if_neg hc0]
    cases hw : (init P).wl with
    | nil =>
      simp only [List.isEmpty_nil, Bool.not_true, Bool.false_eq_true, if_false]
      exact ⟨(by intro h; cases h), (by intro b t h; cases h; exact ⟨0, .refl _⟩),
        (by intro t h; cases h; exact hw)⟩
    | cons x l =>
      simp only [List.isEmpty_cons, Bool.not_false, if_true]
      exact ⟨h.safe (by simp [hw]), h.ret, h.done⟩

theorem solveAsync_spec {P : Problem N D F L E} (c0 : Bool) (o : List Bool) :
    EntrySpec P (solveAsync P c0 o) := by
  have h := continueAsync_spec P o (init P)
  unfold solveAsync apiInitialize
  dsimp only
  by_cases hc0 : c0 = true
  · rw [if_pos hc0]
    exact ⟨(by intro h; cases h), (by intro b t h; cases h; exact ⟨0, .refl _⟩), (by intro t h; cases h)⟩
  · rw [if_neg hc0]
    cases hw : (init P).wl with
    | nil =>
      simp only [List.isEmpty_nil, Bool.not_true, Bool.false_eq_true, if_false]
      exact ⟨(by intro h; cases h), (by intro b t h; cases h; exact ⟨0, .refl _⟩),
        (by intro t h; cases h; exact hw)⟩
    | cons x l =>
      simp only [List.isEmpty_cons, Bool.not_false, if_true]
      exact ⟨h.safe (by simp [hw]), h.ret, h.done⟩

theorem continueUntilLoop_false {P : Problem N D F L E} (i : Nat) (o : List (Nat × Bool)) :
    ∀ (k : Nat) (s t : St N D E), continueUntilLoop P i o k s = .ret false t → ∃ p ∈ o, p.2 = true := by
  induction o with
  | nil => intro k s t h; cases h
  | cons p o ih =>
    intro k s t h
    obtain ⟨delta, cancel⟩ := p
    cases cancel with
    | true => exact ⟨_, List.mem_cons_self, rfl⟩
    | false =>
      simp only [continueUntilLoop] at h
      cases hn : apiNextN P k s with
      | ub => rw [hn] at h; cases h
      | running u => exact absurd hn ((apiNextN_spec P k s).2.2 u)
      | ret b u =>
        rw [hn] at h
        cases b with
        | false => cases h
        | true =>
          simp only [Bool.false_eq_true, if_false] at h
          split at h
          · cases h
          · obtain ⟨q, hq, hq2⟩ := ih _ _ _ h
            exact ⟨q, List.mem_cons_of_mem _ hq, hq2⟩

theorem continueAsync_false {P : Problem N D F L E} (o : List Bool) :
    ∀ (s t : St N D E), continueAsync P o s = .ret false t → true ∈ o := by
  induction o with
  | nil => intro s t h; cases h
  | cons c o ih =>
    intro s t h
    cases c with
    | true => exact List.mem_cons_self
    | false =>
      simp only [continueAsync] at h
      cases hn : apiNext P s with
      | ub => rw [hn] at h; cases h
      | running u => exact absurd hn ((apiNext_spec P s).2.2 u)
      | ret b u =>
        rw [hn] at h
        cases b with
        | false => cases h
        | true =>
          simp only [Bool.false_eq_true, if_false] at h
          exact List.mem_cons_of_mem _ (ih _ _ h)

/-! ## Control never enters a function that is only called through summaries -/

theorem RSteps.outside {P : Problem N D F L E} (hwf : P.icf.WF) {g : F}
    (hsum : ∀ c, P.icf.isCall c = true → g ∈ P.icf.callees c → P.summaryFlow c g ≠ none)
    {a b : Cfg N D L} (h : RSteps P a b)
    (ha : P.icf.funOf a.n ≠ g ∧ ∀ c ∈ a.stk, P.icf.funOf c ≠ g) :
    P.icf.funOf b.n ≠ g ∧ ∀ c ∈ b.stk, P.icf.funOf c ≠ g := by
  induction h with
  | refl => exact ha
  | tail _ h ih =>
    obtain ⟨h1, h2⟩ := ih
    cases h with
    | normal _ q _ => exact ⟨by rw [hwf.succs_fun _ _ q]; exact h1, h2⟩
    | @call stk n d v g' sp d' q1 q2 q3 q4 q5 =>
      refine ⟨?_, ?_⟩
      · intro h
        rw [show P.icf.funOf sp = g' from hwf.start_fun _ _ q4] at h
        exact hsum n q1 (h ▸ q2) (h ▸ q3)
      · intro c hc
        rcases List.mem_cons.1 hc with rfl | hc
        · exact h1
        · exact h2 c hc
    | @ret stk c n d v r d' _ _ q _ =>
      refine ⟨by rw [hwf.ret_fun _ _ q]; exact h2 c List.mem_cons_self,
        fun c' hc' => h2 c' (List.mem_cons_of_mem _ hc')⟩
    | callToRet _ q _ => exact ⟨by rw [hwf.ret_fun _ _ q]; exact h1, h2⟩
    | summary _ _ _ q _ => exact ⟨by rw [hwf.ret_fun _ _ q]; exact h1, h2⟩

theorem Reachable.outside {P : Problem N D F L E} (hwf : P.icf.WF) {g : F}
    (hsum : ∀ c, P.icf.isCall c = true → g ∈ P.icf.callees c → P.summaryFlow c g ≠ none)
    (hseed : ∀ n facts, (n, facts) ∈ P.seeds → P.icf.funOf n ≠ g) {n : N} {d : D}
    (h : Reachable P n d) : P.icf.funOf n ≠ g := by
  obtain ⟨v, n0, d0, v0, stk, ⟨facts, hf, _⟩, hr⟩ := h
  exact (RSteps.outside hwf hsum hr ⟨hseed _ _ hf, by simp⟩).1

/-! ## Computing the steps of a run, for witnesses -/

/-- All configurations one `FStep` away. -/
def fnext (P : Problem N D F L E) : List N × N × D → List (List N × N × D)
  | (stk, n, d) =>
    if P.icf.isCall n then
      ((P.icf.callees n).flatMap fun g =>
        match P.summaryFlow n g with
        | none => (P.icf.starts g).flatMap fun sp => (P.callFlow n g d).map fun d' => (n :: stk, sp, d')
        | some sm => (P.icf.retSites n).flatMap fun r => (sm d).map fun d' => (stk, r, d')) ++
      (P.icf.retSites n).flatMap fun r => (P.ctrFlow n r d).map fun d' => (stk, r, d')
    else
      ((P.icf.succs n).flatMap fun n' => (P.normalFlow n n' d).map fun d' => (stk, n', d')) ++
      (if P.icf.isExit n then
        match stk with
        | [] => []
        | c :: stk' => (P.icf.retSites c).flatMap fun r =>
            (P.retFlow c (P.icf.funOf n) n r d).map fun d' => (stk', r, d')
       else [])

theorem fnext_complete {P : Problem N D F L E} {a b : List N × N × D} (h : FStep P a b) :
    b ∈ fnext P a := by
  cases h with
  | normal h1 h2 h3 =>
    simp only [fnext, h1, Bool.false_eq_true, if_false, List.mem_append, List.mem_flatMap, List.mem_map]
    exact .inl ⟨_, h2, _, h3, rfl⟩
  | call h1 h2 h3 h4 h5 =>
    simp only [fnext, h1, if_true, List.mem_append, List.mem_flatMap]
    refine .inl ⟨_, h2, ?_⟩
    simp only [h3, List.mem_flatMap, List.mem_map]
    exact ⟨_, h4, _, h5, rfl⟩
  | ret h1 h2 h3 h4 =>
    simp only [fnext, h1, h2, Bool.false_eq_true, if_false, if_true, List.mem_append, List.mem_flatMap,
      List.mem_map]
    exact .inr ⟨_, h3, _, h4, rfl⟩
  | callToRet h1 h2 h3 =>
    simp only [fnext, h1, if_true, List.mem_append, List.mem_flatMap, List.mem_map]
    exact .inr ⟨_, h2, _, h3, rfl⟩
  | summary h1 h2 h3 h4 h5 =>
    simp only [fnext, h1, if_true, List.mem_append, List.mem_flatMap]
    refine .inl ⟨_, h2, ?_⟩
    simp only [h3, List.mem_flatMap, List.mem_map]
    exact ⟨_, h4, _, h5, rfl⟩

/-- A set of configurations that contains the seeds and is closed under steps bounds the reachable
facts. -/
theorem not_factReachable {P : Problem N D F L E} (K : List (List N × N × D))
    (hK : ∀ a ∈ K, ∀ b ∈ fnext P a, b ∈ K)
    (hs : ∀ p ∈ P.seeds, ∀ d ∈ P.zero :: p.2.map Prod.fst, ([], p.1, d) ∈ K)
    {n : N} {d : D} (hn : ∀ a ∈ K, a.2 ≠ (n, d)) : ¬ FactReachable P n d := by
  rintro ⟨n0, d0, stk, ⟨facts, hf, h0⟩, hr⟩
  have key : ∀ a b, FSteps P a b → a ∈ K → b ∈ K := by
    intro a b h ha
    induction h with
    | refl => exact ha
    | tail _ h ih => exact hK _ ih _ (fnext_complete h)
  have h1 : (([], n0, d0) : List N × N × D) ∈ K := by
    refine hs _ hf d0 ?_
    rcases h0 with h0 | h0
    · exact List.mem_cons_of_mem _ h0
    · rw [h0]; exact List.mem_cons_self
  exact hn _ (key _ _ hr h1) rfl

/-! ## Mid-function seeds -/

theorem solved_stored_any_seed [DecidableEq L] {P : Problem N D F L E} {ok : E → Prop}
    (hA : P.alg.Sound ok) (hP : P.OkEdges ok) (hwf : P.icf.WFV) (hnt : P.NoTop ok)
    (hst : ∀ n, P.icf.starts (P.icf.funOf n) ≠ [])
    {s : St N D E} {w : VS N D L} (h : Solved P s w) {n : N} {d : D} {x : L}
    (hr : RunVal P n d x) :
    (P.icf.isStart n = false → Stored w n d) ∧ (P.icf.isCall n = true → x ⊑ val w n d) := by
  cases h with
  | @intro v hre hw hv hvw =>
  have hi := inv_reach hA.okClosed.toFor hP.toFor hwf.toWF hre
  have hc := covInv_reach hA.toFor hP.toFor hwf.toWF hre
  have hf := vFinal hi.nodupJ hv hvw
  obtain ⟨hg, hfin⟩ := valueComputation_spec (v := v) (P := P) hA.toFor.mono hi.nodupJ hi.okJ
  obtain ⟨n0, d0, v0, stk, h0, hrun⟩ := hr
  have hE : Explained P s.jump ⟨stk, n, d, x⟩ :=
    explained_run hA.toFor (.inl hnt.toFor) hP.toFor hwf.toWF hi hc hw (explained_seed hA.toFor hc hw h0) (mVal_seed (.inl hnt.toFor) h0) hrun
  have hcall : P.icf.isCall n = true → x ⊑ val (valueComputationTask P s.jump v) n d ∧
      Stored (valueComputationTask P s.jump v) n d := by
    intro hcall
    obtain ⟨h1, h2⟩ := call_val hA.toFor hP.toFor hwf hnt.toFor hi hf hE hcall
    exact ⟨le_trans h1 (hg.le _ _), hg.keep _ _ h2⟩
  refine ⟨fun hs => ?_, fun h => (hcall h).1⟩
  by_cases hc' : P.icf.isCall n = true
  · exact (hcall hc').2
  · obtain ⟨d1, e, sp, y, hj, _⟩ := hE
    obtain ⟨sp', hsp'⟩ := List.exists_mem_of_ne_nil _ (hst n)
    exact (hfin n ((hwf.ncs_iff n).2 ⟨by simpa using hc', hs⟩) sp' hsp' d1 d e hj).2

theorem solved_seed_val [DecidableEq L] {P : Problem N D F L E} {ok : E → Prop}
    (hA : P.alg.Sound ok) (hP : P.OkEdges ok) (hwf : P.icf.WFV)
    {s : St N D E} {w : VS N D L} (h : Solved P s w) {n : N} {d : D} {x : L}
    (h0 : IsSeed P n d x) : x ⊑ val w n d := by
  cases h with
  | @intro v hre hw hv hvw =>
  have hi := inv_reach hA.okClosed.toFor hP.toFor hwf.toWF hre
  have hf := vFinal hi.nodupJ hv hvw
  obtain ⟨hg, _⟩ := valueComputation_spec (v := v) (P := P) hA.toFor.mono hi.nodupJ hi.okJ
  exact le_trans (hf.seed _ _ _ h0) (hg.le _ _)

theorem stored_of_le_val [DecidableEq L] {w : VS N D L} {n : N} {d : D} {x : L} (h : x ⊑ val w n d) (hx : x ≠ top) :
    ∃ l, resultAt w n d = some l ∧ x ⊑ l := by
  obtain ⟨l, hl⟩ := stored_of_ne_top (ne_top_of_le h hx)
  exact ⟨l, hl, by rw [← val_eq hl]; exact h⟩

theorem run_ne_top {P : Problem N D F L E} {ok : E → Prop} (hP : P.OkEdges ok) (hnt : P.NoTop ok)
    {n : N} {d : D} {x : L} (h : RunVal P n d x) : x ≠ top := by
  obtain ⟨n0, d0, v0, stk, h0, hrun⟩ := h
  have key : ∀ a b : Cfg N D L, RSteps P a b → a.v ≠ top → b.v ≠ top := by
    intro a b h ha
    induction h with
    | refl => exact ha
    | tail _ h ih =>
      cases h with
      | normal _ h2 h3 => exact hnt.ap _ (hP.normal _ _ _ _ h2 h3) _ ih
      | call _ h2 _ _ h5 => exact hnt.ap _ (hP.call _ _ _ _ h2 h5) _ ih
      | ret _ _ h3 h4 => exact hnt.ap _ (hP.ret _ _ _ _ _ _ h3 h4) _ ih
      | callToRet _ h2 h3 => exact hnt.ap _ (hP.ctr _ _ _ _ h2 h3) _ ih
      | summary _ _ h3 h4 h5 => exact hnt.ap _ (hP.sum _ _ _ _ _ _ h3 h4 h5) _ ih
  exact key _ _ hrun (hnt.seed _ _ _ h0)

/-! ## Unbalanced returns -/

theorem solved_unbalanced [DecidableEq L] {P : Problem N D F L E} {ok : E → Prop}
    (hA : P.alg.Sound ok) (hm : P.Regular ok) (hP : P.OkEdges ok) (hwf : P.icf.WFV)
    (hfr : P.followReturnsPastSeeds = true) {s : St N D E} {w : VS N D L} (h : Solved P s w)
    {n0 : N} {d0 : D} {v0 : L} (h0 : IsSeed P n0 d0 v0) {n : N} {d : D} {x : L}
    (hrun : RSteps P ⟨[], n0, d0, v0⟩ ⟨[], n, d, x⟩)
    (hnc : P.icf.isCall n = false) (hex : P.icf.isExit n = true)
    (hno : ∀ n1 d1 v1, IsSeed P n1 d1 v1 → P.icf.funOf n1 = P.icf.funOf n →
      ∀ c d' d2 e, s.jump.get (d', c, d2) = some e → P.icf.isCall c = true →
        P.icf.funOf n ∈ P.icf.callees c → P.summaryFlow c (P.icf.funOf n) = none →
        d1 ∉ P.callFlow c (P.icf.funOf n) d2)
    {c r : N} {d5 : D} (hc : c ∈ P.icf.callers (P.icf.funOf n)) (hr : r ∈ P.icf.retSites c)
    (hd5 : d5 ∈ P.retFlow c (P.icf.funOf n) n r d) :
    (∃ e n1 d1 v1, s.jump.get (P.zero, r, d5) = some e ∧ IsSeed P n1 d1 v1 ∧
      P.icf.funOf n1 = P.icf.funOf n0 ∧
      P.alg.ap (P.retEdge c (P.icf.funOf n) n d r d5) x ⊑ P.alg.ap e v1) ∧
    (r ∈ P.icf.nonCallStart → P.icf.starts (P.icf.funOf r) ≠ [] → Stored w r d5) := by
  cases h with
  | @intro v hre hw hv hvw =>
  have hi := inv_reach hA.okClosed.toFor hP.toFor hwf.toWF hre
  have hci := covInv_reach hA.toFor hP.toFor hwf.toWF hre
  have hu := uInv_reach hA hP hwf.toWF hre hfr
  have hE : Explained P s.jump ⟨[], n, d, x⟩ :=
    explained_run hA.toFor hm.toFor hP.toFor hwf.toWF hi hci hw (explained_seed hA.toFor hci hw h0) (mVal_seed hm.toFor h0) hrun
  obtain ⟨d1, e, sp, y, hj, hle, hlk, hfun⟩ := hE
  have hseed : IsSeed P sp d1 y := by cases hlk with | nil h => exact h
  rw [hw] at hu
  obtain ⟨e', hj', hge⟩ := cov_final (hu d1 n d e hj hnc hex (by
    intro sp' hsp' c' d4 hinc
    obtain ⟨q1, q2, d', e'', q3⟩ := hi.incOf _ _ _ _ hinc
    obtain ⟨g, hg, hs, hsp1, hd⟩ := mem_incomingAdds.1 q2
    have : g = P.icf.funOf n := by rw [← hwf.start_fun _ _ hsp1, hwf.start_fun _ _ hsp']
    subst this
    exact hno _ _ _ hseed hfun _ _ _ _ q3 q1 hg hs hd) c r d5 hc hr hd5)
  have hoke := hi.okJ _ _ hj
  have hokr := hP.ret _ _ _ _ _ _ hr hd5
  have hsame : P.icf.funOf n = P.icf.funOf n0 := by
    have key : ∀ a b : Cfg N D L, RSteps P a b →
        ∀ base, (match a.stk.getLast? with | none => P.icf.funOf a.n | some c => P.icf.funOf c) = base →
        (match b.stk.getLast? with | none => P.icf.funOf b.n | some c => P.icf.funOf c) = base := by
      intro a b hab base ha
      induction hab with
      | refl => exact ha
      | tail _ hs ih =>
        cases hs with
        | @normal stk n d v n' d' _ q _ =>
          revert ih; dsimp only; cases stk.getLast? <;> simp [hwf.succs_fun _ _ q]
        | @call stk n d v g sp d' q1 q2 q3 q4 q5 =>
          revert ih
          dsimp only
          rw [List.getLast?_cons]
          cases stk.getLast? <;> simp
        | @ret stk c n d v r d' _ _ q _ =>
          revert ih
          dsimp only
          rw [List.getLast?_cons]
          cases stk.getLast? <;> simp [hwf.ret_fun _ _ q]
        | @callToRet stk n d v r d' _ q _ =>
          revert ih; dsimp only; cases stk.getLast? <;> simp [hwf.ret_fun _ _ q]
        | @summary stk n d v g sum r d' _ _ _ q _ =>
          revert ih; dsimp only; cases stk.getLast? <;> simp [hwf.ret_fun _ _ q]
    exact key _ _ hrun _ rfl
  refine ⟨⟨e', sp, d1, y, hj', hseed, hfun.trans hsame, ?_⟩, ?_⟩
  · exact le_trans (mVal_mono (d1 := d) (d2 := d5) hA.toFor (mVal_run hm.toFor hP hrun (mVal_seed hm.toFor h0)) hokr hle) (le_trans (hA.extend_ge _ _ hoke hokr y) (hge y))
  · intro hncs hst
    obtain ⟨_, hfin⟩ := valueComputation_spec (v := v) (P := P) hA.toFor.mono hi.nodupJ hi.okJ
    obtain ⟨sp', hsp'⟩ := List.exists_mem_of_ne_nil _ hst
    exact (hfin r hncs sp' hsp' P.zero d5 e' hj').2

/-- What Phase II does with the return sites of unbalanced returns. -/
theorem solved_unbalanced_calls [DecidableEq L] {P : Problem N D F L E} {ok : E → Prop}
    (hA : P.alg.Sound ok) (hmt : P.alg.MonoTop ok) (hP : P.OkEdges ok) (hwf : P.icf.WFV)
    (hfr : P.followReturnsPastSeeds = true) {s : St N D E} {w : VS N D L} (h : Solved P s w)
    {n0 : N} {d0 : D} {v0 : L} (h0 : IsSeed P n0 d0 v0) {n : N} {d : D} {x : L}
    (hrun : RSteps P ⟨[], n0, d0, v0⟩ ⟨[], n, d, x⟩)
    (hnc : P.icf.isCall n = false) (hex : P.icf.isExit n = true)
    (hno : ∀ n1 d1 v1, IsSeed P n1 d1 v1 → P.icf.funOf n1 = P.icf.funOf n →
      ∀ c d' d2 e, s.jump.get (d', c, d2) = some e → P.icf.isCall c = true →
        P.icf.funOf n ∈ P.icf.callees c → P.summaryFlow c (P.icf.funOf n) = none →
        d1 ∉ P.callFlow c (P.icf.funOf n) d2)
    {c r : N} {d5 : D} (hc : c ∈ P.icf.callers (P.icf.funOf n)) (hr : r ∈ P.icf.retSites c)
    (hd5 : d5 ∈ P.retFlow c (P.icf.funOf n) n r d)
    {c' : N} {d' : D} {e : E} (hcall : P.icf.isCall c' = true)
    (hfun : P.icf.funOf c' = P.icf.funOf r) (hj : s.jump.get (P.zero, c', d') = some e) :
    P.alg.ap e top ⊑ val w c' d' ∧
    (P.alg.ap e top ≠ top → ∀ g ∈ P.icf.callees c', ∀ d'' ∈ P.callFlow c' g d',
      ∀ sp ∈ P.icf.starts g, P.alg.ap (P.callEdge c' d' g d'') (P.alg.ap e top) ⊑ val w sp d'') := by
  cases h with
  | @intro v hre hw hv hvw =>
  have hi := inv_reach hA.okClosed.toFor hP.toFor hwf.toWF hre
  have hci := covInv_reach hA.toFor hP.toFor hwf.toWF hre
  have hmt' := Problem.Regular.toFor (P := P) (.inr hmt)
  have hE : Explained P s.jump ⟨[], n, d, x⟩ :=
    explained_run hA.toFor hmt' hP.toFor hwf.toWF hi hci hw (explained_seed hA.toFor hci hw h0) (mVal_seed hmt' h0) hrun
  obtain ⟨d1, e1, sp, y, hj1, hle, hlk, hfun1⟩ := hE
  have hseed : IsSeed P sp d1 y := by cases hlk with | nil h => exact h
  have hub : r ∈ s.unbal := uRec_reach hre hfr d1 n d e1 hj1 hnc hex (by
    intro sp' hsp' c' d4 hinc
    obtain ⟨q1, q2, d', e'', q3⟩ := hi.incOf _ _ _ _ hinc
    obtain ⟨g, hg, hs, hsp1, hd⟩ := mem_incomingAdds.1 q2
    have : g = P.icf.funOf n := by rw [← hwf.start_fun _ _ hsp1, hwf.start_fun _ _ hsp']
    subst this
    exact hno _ _ _ hseed hfun1 _ _ _ _ q3 q1 hg hs hd) c r d5 hc hr hd5
  have hf := vFinal hi.nodupJ hv hvw
  obtain ⟨hg, _⟩ := valueComputation_spec (v := v) (P := P) hA.toFor.mono hi.nodupJ hi.okJ
  have hstart : Startish P s r := by
    unfold Startish
    simp [hub]
  have h1 : P.alg.ap e top ⊑ val v c' d' :=
    le_trans (hmt _ (hi.okJ _ _ hj) _)
      (hf.start r P.zero (stored_unbal hv hub) hstart c' ((hwf.callsIn_iff _ _).2 ⟨hcall, hfun⟩) d' e hj)
  refine ⟨le_trans h1 (hg.le _ _), fun hnt g hg' d'' hd'' sp hsp => ?_⟩
  have h2 := hf.call c' d' (stored_of_ne_top (ne_top_of_le h1 hnt)) hcall g hg' d'' hd'' sp hsp
  exact le_trans (le_trans (hA.mono _ (hP.call _ _ _ _ hg' hd'') _ _ hnt h1) h2) (hg.le _ _)

end
end Phasar.IDE
