import Verif.IDE.Phase2
/-!
# Phase II: values are justified by runs
-/
set_option linter.unusedSectionVars false
namespace Phasar.IDE
open Phasar JoinLat

section
variable {N D F L E : Type} [DecidableEq N] [DecidableEq D] [JoinLat L] [DecidableEq L]

/-- All stored values are justified. -/
def PInv (P : Problem N D F L E) (R : (L → Prop) → L → Prop) (v : VS N D L) : Prop :=
  ∀ n d l, v.tab.get (n, d) = some l → R (RunVal P n d) l

theorem pInv_setVal {P : Problem N D F L E} {R : (L → Prop) → L → Prop} {v : VS N D L}
    (hv : PInv P R v) {n : N} {d : D} {l : L} (hl : R (RunVal P n d) l) :
    PInv P R (setVal v n d l) := by
  intro n' d' l' h
  unfold setVal at h
  simp only [AMap.get_set] at h
  split at h
  · rename_i he
    obtain ⟨rfl, rfl⟩ := Prod.mk.inj he
    cases h
    exact hl
  · exact hv _ _ _ h

theorem justified_join_val {P : Problem N D F L E} {ok : D → D → E → Prop} {R : (L → Prop) → L → Prop}
    (hR : Justify P.alg ok R) {v : VS N D L} (hv : PInv P R v) {n : N} {d : D} {l : L}
    (hl : R (RunVal P n d) l) : R (RunVal P n d) (join (val v n d) l) := by
  unfold val
  cases h : v.tab.get (n, d) with
  | none => simpa [top_join] using hl
  | some l0 => exact hR.join _ _ _ (hv _ _ _ h) hl

theorem pInv_propagateValue {P : Problem N D F L E} {ok : D → D → E → Prop} {R : (L → Prop) → L → Prop}
    (hR : Justify P.alg ok R) {v : VS N D L} (hv : PInv P R v) {n : N} {d : D} {l : L}
    (hl : R (RunVal P n d) l) : PInv P R (propagateValue v n d l) := by
  unfold propagateValue
  dsimp only
  split
  · exact hv
  · exact pInv_setVal hv (justified_join_val hR hv hl)

theorem pInv_val {P : Problem N D F L E} {R : (L → Prop) → L → Prop} {v : VS N D L}
    (hv : PInv P R v) {n : N} {d : D} (hs : Stored v n d) : R (RunVal P n d) (val v n d) := by
  obtain ⟨l, h⟩ := hs
  rw [val_eq h]
  exact hv _ _ _ h

theorem foldl_inv {ι : Type} (st : VS N D L → ι → VS N D L) (I : VS N D L → Prop)
    (l : List ι) (hs : ∀ i ∈ l, ∀ v, I v → I (st v i)) (v : VS N D L) (hv : I v) :
    I (l.foldl st v) := by
  induction l generalizing v with
  | nil => exact hv
  | cons a l ih =>
    exact ih (fun i hi => hs i (List.mem_cons_of_mem _ hi)) _ (hs a List.mem_cons_self v hv)

/-- Assumptions shared by the precision lemmas. -/
structure PrecHyp (P : Problem N D F L E) (ok : D → D → E → Prop) (R : (L → Prop) → L → Prop) : Prop where
  hP : P.OkEdgesFor ok
  hwf : P.icf.WFV
  huniq : P.icf.UniqueStart
  hfr : P.followReturnsPastSeeds = false
  hs : SeedsAtStart P
  hsum : SummariesDisjoint P
  hR : Justify P.alg ok R

theorem unbal_reach {P : Problem N D F L E} (hfr : P.followReturnsPastSeeds = false) {s : St N D E}
    (h : Reach P s) : s.unbal = [] := by
  induction h with
  | init => rfl
  | step _ h ih =>
    cases h with
    | take a b x hx =>
      unfold propagate
      dsimp only
      split
      · exact ih
      · rw [task_unbal _ _ _ _ _ hfr]; exact ih

theorem startish_start {P : Problem N D F L E} {ok : D → D → E → Prop} {R : (L → Prop) → L → Prop}
    (H : PrecHyp P ok R) {s : St N D E} (hs : s.unbal = []) {n : N} (h : Startish P s n) :
    n ∈ P.icf.starts (P.icf.funOf n) := by
  unfold Startish at h
  rw [hs] at h
  simp only [List.contains_nil, Bool.or_false, Bool.or_eq_true] at h
  rcases h with h | h
  · exact (H.hwf.isStart_iff n).1 h
  · unfold containsSeedsFor at h
    rw [List.contains_iff_mem] at h
    obtain ⟨⟨n', fs⟩, h1, rfl⟩ := List.mem_map.1 h
    exact H.hs _ _ h1

theorem pInv_atStart {P : Problem N D F L E} {ok : D → D → E → Prop} {R : (L → Prop) → L → Prop}
    (H : PrecHyp P ok R) {s : St N D E} {okI : D → D → E → Prop} (hi : Inv P okI s) (hg : GoodInv P ok R s) {v : VS N D L}
    (hv : PInv P R v) {n : N} {d : D} (hst : Stored v n d) (hn : n ∈ P.icf.starts (P.icf.funOf n)) :
    PInv P R (propagateValueAtStart P s.jump v n d) := by
  unfold propagateValueAtStart
  refine (foldl_inv _ (fun v => PInv P R v ∧ Stored v n d) _ ?_ v ⟨hv, hst⟩).1
  intro c hc v hv
  refine foldl_inv _ (fun v => PInv P R v ∧ Stored v n d) _ ?_ v hv
  rintro ⟨d', e⟩ hen v ⟨hv, hst⟩
  have hj := (mem_forwardLookup hi.nodupJ).1 hen
  obtain ⟨hoke, sp, hsp, _, hgd⟩ := hg.j _ _ _ _ hj
  have hfun : P.icf.funOf c = P.icf.funOf n := ((H.hwf.callsIn_iff _ _).1 hc).2
  dsimp only at hsp
  rw [hfun] at hsp
  cases H.huniq _ _ _ hn hsp
  refine ⟨pInv_propagateValue H.hR hv ?_, (ext_propagateValue _ _ _ _).keep _ _ hst⟩
  refine H.hR.map _ _ _ _ _ _ hoke (pInv_val hv hst) fun x hx => ?_
  exact H.hR.mono _ _ _ (fun y hy => hx.extend hy) (hgd x)

theorem RunVal.step {P : Problem N D F L E} {n : N} {d : D} {v : L} {n' : N} {d' : D} {v' : L}
    (h : RunVal P n d v) (hs : ∀ stk, ∃ stk', RStep P ⟨stk, n, d, v⟩ ⟨stk', n', d', v'⟩) :
    RunVal P n' d' v' := by
  obtain ⟨n0, d0, v0, stk, h0, hr⟩ := h
  obtain ⟨stk', h1⟩ := hs stk
  exact ⟨n0, d0, v0, stk', h0, .tail hr h1⟩

theorem pInv_atCall {P : Problem N D F L E} {ok : D → D → E → Prop} {R : (L → Prop) → L → Prop}
    (H : PrecHyp P ok R) {v : VS N D L}
    (hv : PInv P R v) {n : N} {d : D} (hst : Stored v n d) (hn : P.icf.isCall n = true) :
    PInv P R (propagateValueAtCall P v n d) := by
  unfold propagateValueAtCall
  refine (foldl_inv _ (fun v => PInv P R v ∧ Stored v n d) _ ?_ v ⟨hv, hst⟩).1
  intro g hg v hv
  refine foldl_inv _ (fun v => PInv P R v ∧ Stored v n d) _ ?_ v hv
  intro d' hd' v hv
  refine foldl_inv _ (fun v => PInv P R v ∧ Stored v n d) _ ?_ v hv
  rintro sp hsp v ⟨hv, hst⟩
  refine ⟨pInv_propagateValue H.hR hv ?_, (ext_propagateValue _ _ _ _).keep _ _ hst⟩
  refine H.hR.map _ _ _ _ _ _ (H.hP.call _ _ _ _ hn hg hd') (pInv_val hv hst) fun x hx => ?_
  refine H.hR.single _ _ (hx.step fun stk => ⟨n :: stk, ?_⟩)
  cases hs : P.summaryFlow n g with
  | none => exact .call hn hg hs hsp hd'
  | some sm =>
    rcases H.hsum _ _ _ hg hs with h | h
    · rw [h] at hsp; simp at hsp
    · rw [h] at hd'; simp at hd'

theorem pInv_task {P : Problem N D F L E} {ok : D → D → E → Prop} {R : (L → Prop) → L → Prop}
    (H : PrecHyp P ok R) {s : St N D E} {okI : D → D → E → Prop} (hi : Inv P okI s) (hg : GoodInv P ok R s)
    (hu : s.unbal = []) {v : VS N D L}
    (hv : PInv P R v) {n : N} {d : D} (hst : Stored v n d) :
    PInv P R (valuePropagationTask P s v n d) := by
  unfold valuePropagationTask
  dsimp only
  by_cases hs : (P.icf.isStart n || containsSeedsFor P n || s.unbal.contains n) = true
  · rw [if_pos hs]
    have h1 := pInv_atStart H hi hg hv hst (startish_start H hu hs)
    have h2 := (atStart_spec P s.jump v n d).1.keep _ _ hst
    split
    · exact pInv_atCall H h1 h2 ‹_›
    · exact h1
  · rw [if_neg hs]
    split
    · exact pInv_atCall H hv hst ‹_›
    · exact hv

theorem pInv_submitSeed {P : Problem N D F L E} {ok : D → D → E → Prop} {R : (L → Prop) → L → Prop}
    (H : PrecHyp P ok R) {s : St N D E} {okI : D → D → E → Prop} (hi : Inv P okI s) (hg : GoodInv P ok R s)
    (hu : s.unbal = []) {v : VS N D L}
    (hv : PInv P R v) {n : N} {q : D × L} (hq : IsSeed P n q.1 q.2) :
    PInv P R (submitSeed P s v n q) := by
  unfold submitSeed
  refine pInv_task H hi hg hu (pInv_setVal hv ?_) ((stored_setVal _ _ _ _ _ _).2 (.inl rfl))
  rw [join_comm]
  exact justified_join_val H.hR hv (H.hR.single _ _ ⟨n, q.1, q.2, [], hq, .refl _⟩)

theorem pInv_submit {P : Problem N D F L E} {ok : D → D → E → Prop} {R : (L → Prop) → L → Prop}
    (H : PrecHyp P ok R) {s : St N D E} {okI : D → D → E → Prop} (hi : Inv P okI s) (hg : GoodInv P ok R s)
    (hu : s.unbal = []) : PInv P R (submitInitialValues P s) := by
  unfold submitInitialValues
  refine foldl_inv _ (PInv P R) _ ?_ _ (by intro n d l h; simp at h)
  rintro ⟨n, fs⟩ hp v hv
  refine foldl_inv _ (PInv P R) _ ?_ v hv
  rintro ⟨d, l⟩ hq v hv
  refine pInv_submitSeed H hi hg hu hv ?_
  have : allSeeds P s = seedsWithZero P := by simp [allSeeds, hu]
  rw [this] at hp
  exact mem_seedsWithZero.1 ⟨fs, hp, hq⟩

theorem pInv_vReach {P : Problem N D F L E} {ok : D → D → E → Prop} {R : (L → Prop) → L → Prop}
    (H : PrecHyp P ok R) {s : St N D E} {okI : D → D → E → Prop} (hi : Inv P okI s) (hg : GoodInv P ok R s)
    (hu : s.unbal = []) {v : VS N D L} (h : VReach P s v) : PInv P R v := by
  induction h with
  | init => exact pInv_submit H hi hg hu
  | @step v w hr h ih =>
    have hst := (vReach_spec hr).1.wst
    cases h with
    | take a b x hx =>
      refine pInv_task H hi hg hu (v := { v with vwl := a ++ b }) ih (hst x (by rw [hx]; simp))

/-- Phase II(ii): values stay justified, if the start-point cells that are read exist, or the
justification does not look at the value, or Top is justified wherever anything is. -/
theorem pInv_computation {P : Problem N D F L E} {ok : D → D → E → Prop} {R : (L → Prop) → L → Prop}
    (H : PrecHyp P ok R) {s : St N D E} {okI : D → D → E → Prop} (hi : Inv P okI s) (hg : GoodInv P ok R s)
    {v : VS N D L} (hv : PInv P R v)
    (hst : (∀ S y, R S y → R S top) ∨ ∀ n d, n ∈ P.icf.starts (P.icf.funOf n) → Reachable P n d →
      Stored v n d) : PInv P R (valueComputationTask P s.jump v) := by
  unfold valueComputationTask
  have hkeep : ∀ (w : VS N D L) n d l, (∀ n d, Stored v n d → Stored w n d) →
      ∀ n' d', Stored v n' d' → Stored (setVal w n d l) n' d' := by
    intro w n d l h n' d' hs
    exact (stored_setVal _ _ _ _ _ _).2 (.inr (h _ _ hs))
  refine (foldl_inv _ (fun w => PInv P R w ∧ ∀ n d, Stored v n d → Stored w n d) _ ?_ v
    ⟨hv, fun _ _ h => h⟩).1
  intro n _ w hw
  refine foldl_inv _ (fun w => PInv P R w ∧ ∀ n d, Stored v n d → Stored w n d) _ ?_ w hw
  intro sp hsp w hw
  refine foldl_inv _ (fun w => PInv P R w ∧ ∀ n d, Stored v n d → Stored w n d) _ ?_ w hw
  rintro ⟨d1, d2, e⟩ hc w ⟨hw, hk⟩
  have hj := (mem_lookupByTarget hi.nodupJ).1 hc
  have hgood := hg.j _ _ _ _ hj
  refine ⟨pInv_setVal hw (justified_join_val H.hR hw ?_), hkeep _ _ _ _ hk⟩
  obtain ⟨hoke, sp', hsp', hrch, hgd⟩ := hgood
  cases H.huniq _ _ _ hsp hsp'
  have hval : R (RunVal P sp d1) (val w sp d1) := by
    by_cases hs1 : Stored w sp d1
    · exact pInv_val hw hs1
    · rcases hst with hst | hst
      · obtain ⟨x, hx⟩ := hrch
        have : val w sp d1 = top := by
          cases hl : w.tab.get (sp, d1) with
          | none => unfold val; rw [hl]
          | some l => exact absurd ⟨l, hl⟩ hs1
        rw [this]
        exact hst _ _ (H.hR.single _ _ hx)
      · exact absurd (hk _ _ (hst sp d1 (by rw [H.hwf.start_fun _ _ hsp]; exact hsp) hrch)) hs1
  refine H.hR.map _ _ _ _ _ _ hoke hval fun x hx => ?_
  exact H.hR.mono _ _ _ (fun y hy => hx.extend hy) (hgd x)

/-- Every reported fact is reachable. -/
theorem solved_facts {P : Problem N D F L E}
    (hwf : P.icf.WFV) (huniq : P.icf.UniqueStart) (hfr : P.followReturnsPastSeeds = false)
    (hs : SeedsAtStart P) (hsum : SummariesDisjoint P)
    {s : St N D E} {w : VS N D L} (h : Solved P s w) {n : N} {d : D}
    (hst : Stored w n d) : Reachable P n d := by
  have H : PrecHyp P (fun _ _ _ => True) (fun S _ => ∃ v, S v) :=
    ⟨okEdgesFor_true _, hwf, huniq, hfr, hs, hsum, justify_facts _⟩
  cases h with
  | @intro v hre hw hv hvw =>
    have hi := inv_reach (okClosed_true _).toFor (okEdges_true _).toFor hwf.toWF hre
    have hg := goodInv_reach H.hP hwf.toWF huniq hfr hs H.hR hre
    have hp := pInv_vReach H hi hg (unbal_reach hfr hre) hv
    obtain ⟨l, hl⟩ := hst
    exact pInv_computation H hi hg hp (.inl fun _ _ h => h) n d l hl

/-- Every reported value is a join of values of runs. -/
theorem solved_exactFor {P : Problem N D F L E} {ok : D → D → E → Prop} (hA : P.alg.SoundFor ok)
    (hP : P.OkEdgesFor ok) (hnt : P.NoTop (AnyPair ok)) {okF : D → D → E → Prop} (hX : P.alg.ExactFor okF) (hPF : P.OkEdgesFor okF)
    (hwf : P.icf.WFV) (huniq : P.icf.UniqueStart) (hfr : P.followReturnsPastSeeds = false)
    (hs : SeedsAtStart P) (hsum : SummariesDisjoint P)
    {s : St N D E} {w : VS N D L} (h : Solved P s w) {n : N} {d : D} {l : L}
    (hst : w.tab.get (n, d) = some l) : JoinOf (RunVal P n d) l := by
  have H : PrecHyp P okF JoinOf :=
    ⟨hPF, hwf, huniq, hfr, hs, hsum, justify_exact hX⟩
  have h' := h
  cases h with
  | @intro v hre hw hv hvw =>
    have hi := inv_reach hA.okClosed hP hwf.toWF hre
    have hg := goodInv_reach H.hP hwf.toWF huniq hfr hs H.hR hre
    have hp := pInv_vReach H hi hg (unbal_reach hfr hre) hv
    refine pInv_computation H hi hg hp (.inr ?_) n d l hst
    -- a reachable start-point fact is stored after Phase II(i)
    rintro m d' hm ⟨x, hx⟩
    have hc := covInv_reach hA hP hwf.toWF hre
    have hf := vFinal hi.nodupJ hv hvw
    obtain ⟨n0, d0, v0, stk, h0, hrun⟩ := hx
    have hex : ∀ c, RSteps P ⟨[], n0, d0, v0⟩ c → Explained P s.jump c := fun c hc' =>
      explained_run hA (.inl hnt) hP hwf.toWF hi hc hw (explained_seed hA hc hw h0) (mVal_seed (.inl hnt) h0) hc'
    cases hrun with
    | refl => exact ((vReach_spec hv).2 _ _ _ h0).2
    | tail hpre hstep =>
      have hEp := hex _ hpre
      cases hstep with
      | normal _ h2 _ => exact absurd h2 ((hwf.start_no_pred _ _ hm).1 _)
      | ret _ _ h3 _ => exact absurd h3 ((hwf.start_no_pred _ _ hm).2 _)
      | callToRet _ h2 _ => exact absurd h2 ((hwf.start_no_pred _ _ hm).2 _)
      | summary _ _ _ h4 _ => exact absurd h4 ((hwf.start_no_pred _ _ hm).2 _)
      | call h1 h2 h3 h4 h5 =>
        obtain ⟨d1, e, sp, y, hj, hle, hlk, hfun⟩ := hEp
        obtain ⟨q1, q2, q3⟩ := linked_val hA hP hwf hnt hi hf hlk
        have hl2 : Linked P s.jump _ m d' _ := .cons hlk hj hfun h1 h2 h3 h4 h5
        obtain ⟨q4, q5, _⟩ := linked_val hA hP hwf hnt hi hf hl2
        exact stored_of_ne_top (ne_top_of_le q5 q4)

theorem solved_exact {P : Problem N D F L E} {ok : E → Prop} (hA : P.alg.Sound ok)
    (hX : P.alg.Exact ok) (hP : P.OkEdges ok) (hnt : P.NoTop ok)
    (hwf : P.icf.WFV) (huniq : P.icf.UniqueStart) (hfr : P.followReturnsPastSeeds = false)
    (hs : SeedsAtStart P) (hsum : SummariesDisjoint P)
    {s : St N D E} {w : VS N D L} (h : Solved P s w) {n : N} {d : D} {l : L}
    (hst : w.tab.get (n, d) = some l) : JoinOf (RunVal P n d) l :=
  solved_exactFor hA.toFor hP.toFor hnt.toFor (hX.toFor hA.okClosed) hP.toFor hwf huniq hfr hs hsum h hst

/-! ## Values that occur -/

/-- Edge functions that stay within the values `Q`: everything is mapped into `Q`, or exactly `Q` is, or nothing is.  Joins of
edge functions may be smaller than they should be. -/
structure EdgeAlg.StaysIn (A : EdgeAlg L E) (ok : D → D → E → Prop) (Q : L → Prop) : Prop where
  ok_id : ∀ d, ok d d A.idE
  ok_extend : ∀ d1 d2 d3 f g, ok d1 d2 f → ok d2 d3 g → ok d1 d3 (A.extend f g)
  ok_combine : ∀ d1 d2 f g, ok d1 d2 f → ok d1 d2 g → ok d1 d2 (A.combine f g)
  ok_first : ∀ d1 d2 f, ok d1 d2 f → ok d1 d2 (A.combine A.allTop f)
  ap_id : ∀ x, A.ap A.idE x = x
  extend_eq : ∀ d1 d2 d3 f g, ok d1 d2 f → ok d2 d3 g → ∀ x, A.ap (A.extend f g) x = A.ap g (A.ap f x)
  combine : ∀ d1 d2 f g, ok d1 d2 f → ok d1 d2 g → ∀ x, Q (A.ap f x) → Q (A.ap g x) → Q (A.ap (A.combine f g) x)
  first : ∀ d1 d2 f, ok d1 d2 f → ∀ x, Q (A.ap f x) → Q (A.ap (A.combine A.allTop f) x)
  join : ∀ a b, Q a → Q b → Q (join a b)
  ap : ∀ d1 d2 f, ok d1 d2 f → (∀ x, Q (A.ap f x)) ∨ (∀ x, Q (A.ap f x) ↔ Q x) ∨ ∀ x, ¬ Q (A.ap f x)

theorem justify_stays {A : EdgeAlg L E} {ok : D → D → E → Prop} {Q : L → Prop} (hA : A.StaysIn ok Q) :
    Justify A ok (fun S y => (∃ v, S v) ∧ ((∀ v, S v → Q v) → Q y)) where
  ok_id := hA.ok_id
  ok_extend := hA.ok_extend
  ok_combine := hA.ok_combine
  ok_first := hA.ok_first
  nonempty := fun _ _ h => h.1
  single := fun _ v h => ⟨⟨v, h⟩, fun hq => hq v h⟩
  mono := fun _ _ _ h ⟨⟨v, hv⟩, h2⟩ => ⟨⟨v, h v hv⟩, fun hq => h2 fun v hv => hq v (h v hv)⟩
  id := fun x => .inl (hA.ap_id x)
  extend := by
    intro S T d1 d2 d3 f g x hf hg h1 h2
    obtain ⟨v, hv⟩ := h1.1
    refine ⟨(h2 v hv).1, fun hq => ?_⟩
    rw [hA.extend_eq _ _ _ _ _ hf hg]
    rcases hA.ap _ _ _ hg with h | h | h
    · exact h _
    · exact (h _).2 (h1.2 fun v hv => (h v).1 ((h2 v hv).2 hq))
    · exact absurd ((h2 v hv).2 hq) (h v)
  combine := by
    intro S d1 d2 f g x hf hg h1 h2
    exact ⟨h1.1, fun hq => hA.combine _ _ _ _ hf hg x (h1.2 hq) (h2.2 hq)⟩
  first := by
    intro S d1 d2 f x hf h
    exact ⟨h.1, fun hq => hA.first _ _ _ hf x (h.2 hq)⟩
  join := fun _ _ _ h1 h2 => ⟨h1.1, fun hq => hA.join _ _ (h1.2 hq) (h2.2 hq)⟩
  map := by
    intro S T d1 d2 g y hg h1 h2
    obtain ⟨v, hv⟩ := h1.1
    refine ⟨(h2 v hv).1, fun hq => ?_⟩
    rcases hA.ap _ _ _ hg with h | h | h
    · exact h _
    · exact (h _).2 (h1.2 fun v hv => (h v).1 ((h2 v hv).2 hq))
    · exact absurd ((h2 v hv).2 hq) (h v)

/-- Where the values of all runs are in `Q`, so is the reported value, whether or not the edge functions are sound. -/
theorem solved_stays {P : Problem N D F L E} {ok : D → D → E → Prop} {Q : L → Prop} (hA : P.alg.StaysIn ok Q)
    (hP : P.OkEdgesFor ok) (hQt : Q top) (hwf : P.icf.WFV) (huniq : P.icf.UniqueStart) (hfr : P.followReturnsPastSeeds = false)
    (hs : SeedsAtStart P) (hsum : SummariesDisjoint P)
    {s : St N D E} {w : VS N D L} (h : Solved P s w) {n : N} {d : D} {l : L}
    (hst : w.tab.get (n, d) = some l) (hQ : ∀ x, RunVal P n d x → Q x) : Q l := by
  have H : PrecHyp P ok _ := ⟨hP, hwf, huniq, hfr, hs, hsum, justify_stays hA⟩
  cases h with
  | @intro v hre hw hv hvw =>
    have hi := inv_reach (okClosed_true _).toFor (okEdges_true _).toFor hwf.toWF hre
    have hg := goodInv_reach H.hP hwf.toWF huniq hfr hs H.hR hre
    have hp := pInv_vReach H hi hg (unbal_reach hfr hre) hv
    exact (pInv_computation H hi hg hp (.inl fun S y h => ⟨h.1, fun _ => hQt⟩) n d l hst).2 hQ

end
end Phasar.IDE
