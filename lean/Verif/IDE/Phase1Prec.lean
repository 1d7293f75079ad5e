import Verif.IDE.Phase1Sound
/-!
# Phase I: every path edge is justified by realizable runs
-/
set_option linter.unusedSectionVars false
namespace Phasar.IDE
open Phasar JoinLat

section
variable {N D F L E : Type}

theorem RSteps.trans {P : Problem N D F L E} {a b c : Cfg N D L} (h1 : RSteps P a b)
    (h2 : RSteps P b c) : RSteps P a c := by
  induction h2 with
  | refl => exact h1
  | tail _ h ih => exact .tail ih h

theorem RStep.lift {P : Problem N D F L E} {a b : Cfg N D L} (h : RStep P a b) (k : List N) :
    RStep P ⟨a.stk ++ k, a.n, a.d, a.v⟩ ⟨b.stk ++ k, b.n, b.d, b.v⟩ := by
  cases h with
  | normal h1 h2 h3 => exact .normal h1 h2 h3
  | call h1 h2 h3 h4 h5 => exact .call h1 h2 h3 h4 h5
  | ret h1 h2 h3 h4 => exact .ret h1 h2 h3 h4
  | callToRet h1 h2 h3 => exact .callToRet h1 h2 h3
  | summary h1 h2 h3 h4 h5 => exact .summary h1 h2 h3 h4 h5

theorem RSteps.lift {P : Problem N D F L E} {a b : Cfg N D L} (h : RSteps P a b) (k : List N) :
    RSteps P ⟨a.stk ++ k, a.n, a.d, a.v⟩ ⟨b.stk ++ k, b.n, b.d, b.v⟩ := by
  induction h with
  | refl => exact .refl _
  | tail _ h ih => exact .tail ih (h.lift k)

/-- Values at `(n, d2)` of same-level runs from `(sp, d1)` with value `x`. -/
def SLR (P : Problem N D F L E) (sp : N) (d1 : D) (x : L) (n : N) (d2 : D) (v : L) : Prop :=
  RSteps P ⟨[], sp, d1, x⟩ ⟨[], n, d2, v⟩

theorem RunVal.extend [JoinLat L] {P : Problem N D F L E} {sp : N} {d1 : D} {x : L} {n : N} {d2 : D}
    {v : L} (h : RunVal P sp d1 x) (h2 : SLR P sp d1 x n d2 v) : RunVal P n d2 v := by
  obtain ⟨n0, d0, v0, stk, h0, hr⟩ := h
  exact ⟨n0, d0, v0, stk, h0, hr.trans (by simpa using RSteps.lift h2 stk)⟩

/-- How a set of run values justifies the value of an edge function: as their join (exact mode)
or merely by being non-empty (facts only). -/
structure Justify [JoinLat L] (A : EdgeAlg L E) (ok : D → D → E → Prop) (R : (L → Prop) → L → Prop) : Prop where
  ok_id : ∀ d, ok d d A.idE
  ok_extend : ∀ d1 d2 d3 f g, ok d1 d2 f → ok d2 d3 g → ok d1 d3 (A.extend f g)
  ok_combine : ∀ d1 d2 f g, ok d1 d2 f → ok d1 d2 g → ok d1 d2 (A.combine f g)
  ok_first : ∀ d1 d2 f, ok d1 d2 f → ok d1 d2 (A.combine A.allTop f)
  nonempty : ∀ S y, R S y → ∃ v, S v
  single : ∀ S v, S v → R S v
  mono : ∀ S T y, (∀ v, S v → T v) → R S y → R T y
  id : ∀ x, A.ap A.idE x = x ∨ (∀ S y y', R S y → R S y')
  extend : ∀ S T d1 d2 d3 f g x, ok d1 d2 f → ok d2 d3 g → R S (A.ap f x) → (∀ v, S v → R T (A.ap g v)) →
    R T (A.ap (A.extend f g) x)
  combine : ∀ S d1 d2 f g x, ok d1 d2 f → ok d1 d2 g → R S (A.ap f x) → R S (A.ap g x) →
    R S (A.ap (A.combine f g) x)
  first : ∀ S d1 d2 f x, ok d1 d2 f → R S (A.ap f x) → R S (A.ap (A.combine A.allTop f) x)
  join : ∀ S a b, R S a → R S b → R S (JoinLat.join a b)
  map : ∀ S T d1 d2 g y, ok d1 d2 g → R S y → (∀ v, S v → R T (A.ap g v)) → R T (A.ap g y)

theorem justify_facts [JoinLat L] (A : EdgeAlg L E) :
    Justify A (fun (_ _ : D) _ => True) (fun S _ => ∃ v, S v) where
  ok_id := fun _ => trivial
  ok_extend := fun _ _ _ _ _ _ _ => trivial
  ok_combine := fun _ _ _ _ _ _ => trivial
  ok_first := fun _ _ _ _ => trivial
  nonempty := fun _ _ h => h
  single := fun _ v h => ⟨v, h⟩
  mono := fun _ _ _ h ⟨v, hv⟩ => ⟨v, h v hv⟩
  id := fun _ => .inr fun _ _ _ h => h
  extend := fun _ _ _ _ _ _ _ _ _ _ ⟨v, hv⟩ h => h v hv
  combine := fun _ _ _ _ _ _ _ _ h _ => h
  first := fun _ _ _ _ _ _ h => h
  join := fun _ _ _ h _ => h
  map := fun _ _ _ _ _ _ _ ⟨v, hv⟩ h => h v hv

theorem justify_exact [JoinLat L] {A : EdgeAlg L E} {ok : D → D → E → Prop} (hA : A.ExactFor ok) :
    Justify A ok JoinOf where
  ok_id := hA.ok_id
  ok_extend := hA.ok_extend
  ok_combine := hA.ok_combine
  ok_first := hA.ok_first
  nonempty := fun _ _ h => h.nonempty
  single := fun _ _ h => .one h
  mono := fun _ _ _ h h' => h'.mono h
  id := fun x => .inl (hA.ap_id x)
  extend := by
    intro S T d1 d2 d3 f g x hf hg h1 h2
    rw [hA.extend_eq _ _ _ _ _ hf hg]
    exact h1.map (hA.distrib _ _ _ hg) h2
  combine := by
    intro S d1 d2 f g x hf hg h1 h2
    rw [hA.combine_eq _ _ _ _ hf hg]
    exact .join h1 h2
  first := by
    intro S d1 d2 f x hf h
    rw [hA.first_eq _ _ _ hf]
    exact h
  join := fun _ _ _ h1 h2 => .join h1 h2
  map := fun _ _ _ _ _ _ hg h1 h2 => h1.map (hA.distrib _ _ _ hg) h2

/-- Exactness on a set of edge functions that is closed under the operations. -/
theorem EdgeAlg.Exact.toFor [JoinLat L] {A : EdgeAlg L E} {ok : E → Prop} (hX : A.Exact ok) (hok : OkClosed A ok) :
    A.ExactFor (fun (_ _ : D) => ok) where
  ok_id := fun _ => hok.ok_id
  ok_extend := fun _ _ _ => hok.ok_extend
  ok_combine := fun _ _ => hok.ok_combine
  ok_first := fun _ _ => hok.ok_first
  ap_id := hX.ap_id
  extend_eq := fun _ _ _ => hX.extend_eq
  combine_eq := fun _ _ => hX.combine_eq
  first_eq := fun _ _ => hX.first_eq
  distrib := fun _ _ => hX.distrib

variable [DecidableEq N] [DecidableEq D] [JoinLat L]

/-- A path edge is justified. -/
def Good (P : Problem N D F L E) (ok : D → D → E → Prop) (R : (L → Prop) → L → Prop) (p : PathEdge N D) (e : E) : Prop :=
  ok p.d1 p.d2 e ∧ ∃ sp ∈ P.icf.starts (P.icf.funOf p.n), Reachable P sp p.d1 ∧
    ∀ x, R (SLR P sp p.d1 x p.n p.d2) (P.alg.ap e x)

/-- All path edges of a state are justified. -/
structure GoodInv (P : Problem N D F L E) (ok : D → D → E → Prop) (R : (L → Prop) → L → Prop) (s : St N D E) : Prop where
  j : ∀ d1 n d2 e, s.jump.get (d1, n, d2) = some e → Good P ok R ⟨d1, n, d2⟩ e
  w : ∀ p e, (p, e) ∈ s.wl → Good P ok R p e

theorem Good.reachable {P : Problem N D F L E} {ok : D → D → E → Prop} {R : (L → Prop) → L → Prop}
    (hR : Justify P.alg ok R) {p : PathEdge N D} {e : E} (h : Good P ok R p e) :
    Reachable P p.n p.d2 := by
  obtain ⟨_, sp, _, ⟨v, hv⟩, h⟩ := h
  obtain ⟨w, hw⟩ := hR.nonempty _ _ (h v)
  exact ⟨w, hv.extend hw⟩

theorem isSeed_start {P : Problem N D F L E} (hs : SeedsAtStart P) {n : N} {d : D} {v : L}
    (h : IsSeed P n d v) : n ∈ P.icf.starts (P.icf.funOf n) := by
  obtain ⟨fs, hq, _⟩ := h
  exact hs _ _ hq

theorem Justify.ofId {A : EdgeAlg L E} {ok : D → D → E → Prop} {R : (L → Prop) → L → Prop}
    (hR : Justify A ok R) {S : L → Prop} {x : L} (h : S x) : R S (A.ap A.idE x) := by
  rcases hR.id x with h' | h'
  · rw [h']; exact hR.single _ _ h
  · exact h' _ _ _ (hR.single _ _ h)

theorem goodInv_init {P : Problem N D F L E} {ok : D → D → E → Prop} {R : (L → Prop) → L → Prop}
    (hR : Justify P.alg ok R) (hs : SeedsAtStart P) : GoodInv P ok R (init P) where
  j := by intro d1 n d2 e h; simp [init] at h
  w := by
    intro p e h
    obtain ⟨n, d, v, h0, rfl, rfl⟩ := mem_init_wl.1 h
    exact ⟨hR.ok_id _, n, isSeed_start hs h0, ⟨v, n, d, v, [], h0, .refl _⟩, fun x => hR.ofId (.refl _)⟩

/-- One more same-level step. -/
theorem Good.snoc {P : Problem N D F L E} {ok : D → D → E → Prop} {R : (L → Prop) → L → Prop}
    (hR : Justify P.alg ok R) {d1 : D} {n : N} {d2 : D} {e g : E} {n' : N} {d3 : D}
    (hg : ok d2 d3 g) (h : Good P ok R ⟨d1, n, d2⟩ e)
    (hfun : P.icf.funOf n' = P.icf.funOf n)
    (hstep : ∀ v, R (SLR P n d2 v n' d3) (P.alg.ap g v)) :
    Good P ok R ⟨d1, n', d3⟩ (P.alg.extend e g) := by
  obtain ⟨he, sp, hsp, hreach, hr⟩ := h
  refine ⟨hR.ok_extend _ _ _ _ _ he hg, sp, by simpa [hfun] using hsp, hreach, fun x => ?_⟩
  refine hR.extend _ _ _ _ _ _ _ _ he hg (hr x) fun v hv => ?_
  refine hR.mono _ _ _ (fun w hw => RSteps.trans hv hw) (hstep v)

theorem slr_one {P : Problem N D F L E} {R : (L → Prop) → L → Prop} {ok : D → D → E → Prop}
    (hR : Justify P.alg ok R) {n : N} {d2 : D} {n' : N} {d3 : D} {g : E} {v : L}
    (h : RStep P ⟨[], n, d2, v⟩ ⟨[], n', d3, P.alg.ap g v⟩) :
    R (SLR P n d2 v n' d3) (P.alg.ap g v) :=
  hR.single _ _ (.tail (.refl _) h)

/-- Effect of a whole call: call edge, callee summary, return edge. -/
theorem slr_call {P : Problem N D F L E} {R : (L → Prop) → L → Prop} {ok : D → D → E → Prop}
    (hP : P.OkEdgesFor ok)
    (hR : Justify P.alg ok R) {c : N} {d2 : D} {g : F} {sp : N} {d3 : D} {n : N} {d4 : D} {fs : E}
    {r : N} {d5 : D} (h1 : P.icf.isCall c = true) (h2 : g ∈ P.icf.callees c)
    (h3 : P.summaryFlow c g = none) (h4 : sp ∈ P.icf.starts g) (h5 : d3 ∈ P.callFlow c g d2)
    (hfs : ok d3 d4 fs) (hgood : ∀ x, R (SLR P sp d3 x n d4) (P.alg.ap fs x))
    (h6 : P.icf.isCall n = false) (h7 : P.icf.isExit n = true) (h8 : P.icf.funOf n = g)
    (h9 : r ∈ P.icf.retSites c) (h10 : d5 ∈ P.retFlow c g n r d4) (v : L) :
    R (SLR P c d2 v r d5)
      (P.alg.ap (P.alg.extend (P.alg.extend (P.callEdge c d2 g d3) fs) (P.retEdge c g n d4 r d5)) v) := by
  have hokc := hP.call _ _ _ _ h1 h2 h5
  have hokr := hP.ret _ _ _ _ _ _ (.inr ⟨h1, h2⟩) h7 h8 h9 h10
  refine hR.extend (fun w => RSteps P ⟨[], c, d2, v⟩ ⟨[c], n, d4, w⟩) _ _ _ _ _ _ _
    (hR.ok_extend _ _ _ _ _ hokc hfs) hokr ?_ ?_
  · refine hR.extend (fun w => RSteps P ⟨[], c, d2, v⟩ ⟨[c], sp, d3, w⟩) _ _ _ _ _ _ _ hokc hfs ?_ ?_
    · exact hR.single _ _ (.tail (.refl _) (.call h1 h2 h3 h4 h5))
    · intro w hw
      refine hR.mono _ _ _ (fun u hu => hw.trans ?_) (hgood w)
      simpa using RSteps.lift hu [c]
  · intro w hw
    subst h8
    exact hR.single _ _ (.tail hw (.ret h6 h7 h9 h10))

theorem goodInv_step {P : Problem N D F L E} {ok : D → D → E → Prop} {R : (L → Prop) → L → Prop}
    (hP : P.OkEdgesFor ok) (hwf : P.icf.WF) (huniq : P.icf.UniqueStart)
    (hfr : P.followReturnsPastSeeds = false)
    (hR : Justify P.alg ok R) {s t : St N D E} {okI : D → D → E → Prop} (hi : Inv P okI s) (hg : GoodInv P ok R s)
    (h : SStep P s t) : GoodInv P ok R t := by
  cases h with
  | take a b x hx =>
  obtain ⟨⟨d1, n, d2⟩, f⟩ := x
  have hsub : ∀ y, y ∈ a ++ b → y ∈ s.wl := by
    intro y hy; rw [hx]; simp only [List.mem_append, List.mem_cons] at hy ⊢
    rcases hy with h | h
    · exact .inl h
    · exact .inr (.inr h)
  have hfgood : Good P ok R ⟨d1, n, d2⟩ f := hg.w _ _ (by rw [hx]; simp)
  have hfok : ok d1 d2 f := hfgood.1
  unfold propagate
  dsimp only
  generalize hf' : P.alg.combine (jumpFunction P { s with wl := a ++ b } d1 n d2) f = f'
  have hf'good : Good P ok R ⟨d1, n, d2⟩ f' := by
    rw [← hf']
    unfold jumpFunction
    cases hgt : s.jump.get (d1, n, d2) with
    | none =>
      obtain ⟨_, sp, hsp, hr, h⟩ := hfgood
      exact ⟨hR.ok_first _ _ _ hfok, sp, hsp, hr, fun x => hR.first _ _ _ _ _ hfok (h x)⟩
    | some e =>
      obtain ⟨_, sp, hsp, hr, h⟩ := hfgood
      obtain ⟨heok, sp', hsp', _, h'⟩ := hg.j _ _ _ _ hgt
      cases huniq _ _ _ hsp hsp'
      exact ⟨hR.ok_combine _ _ _ _ heok hfok, sp, hsp, hr, fun x => hR.combine _ _ _ _ _ _ heok hfok (h' x) (h x)⟩
  have hf'ok : ok d1 d2 f' := hf'good.1
  split
  · exact ⟨hg.j, fun p e h => hg.w _ _ (hsub _ h)⟩
  · generalize hu : ({ s with wl := a ++ b, jump := s.jump.set (d1, n, d2) f' } : St N D E) = u
    have huJ : u.jump = s.jump.set (d1, n, d2) f' := by rw [← hu]
    have huE : u.endSum = s.endSum := by rw [← hu]
    have huI : u.incoming = s.incoming := by rw [← hu]
    have huW : u.wl = a ++ b := by rw [← hu]
    have hju : jumpFunction P u d1 n d2 = f' := jumpFunction_of_get (by rw [huJ]; simp)
    have hgj : ∀ e1 m e2 e, u.jump.get (e1, m, e2) = some e →
        Good P ok R ⟨e1, m, e2⟩ e := by
      intro e1 m e2 e h
      rw [huJ, AMap.get_set] at h
      split at h
      · rename_i heq
        cases h
        simp only [Prod.mk.injEq] at heq
        obtain ⟨rfl, rfl, rfl⟩ := heq
        exact hf'good
      · exact hg.j _ _ _ _ h
    refine ⟨?_, ?_⟩
    · rw [task_jump]; exact hgj
    · intro p e h
      rw [mem_task_wl, huW, hju] at h
      rcases h with h | h
      · exact hg.w _ _ (hsub _ h)
      · dsimp only at h
        cases h with
        | normal h1 h2 h3 =>
          exact hf'good.snoc hR (hP.normal _ _ _ _ h1 h2 h3) (hwf.succs_fun _ _ h2)
            fun v => slr_one hR (.normal h1 h2 h3)
        | sum h1 h2 h3 h4 h5 =>
          exact hf'good.snoc hR (hP.sum _ _ _ _ _ _ h3 h4 h5) (hwf.ret_fun _ _ h4)
            fun v => slr_one hR (.summary h1 h2 h3 h4 h5)
        | ctr h1 h2 h3 =>
          exact hf'good.snoc hR (hP.ctr _ _ _ _ h1 h2 h3) (hwf.ret_fun _ _ h2)
            fun v => slr_one hR (.callToRet h1 h2 h3)
        | @call g sp d3 h1 h2 h3 h4 h5 =>
          refine ⟨hR.ok_id _, sp, by simpa [hwf.start_fun _ _ h4] using h4, ?_, fun x => hR.ofId (.refl _)⟩
          obtain ⟨w, n0, d0, v0, stk, h0, hr⟩ := hf'good.reachable hR
          exact ⟨_, n0, d0, v0, _, h0, .tail hr (.call h1 h2 h3 h4 h5)⟩
        | @callSum g sp d3 eP d4 fs r d5 h1 h2 h3 h4 h5 hen h6 h7 =>
          have hen' := (mem_endSummary (by rw [huE]; exact hi.nodupE)).1 hen
          rw [huE] at hen'
          obtain ⟨hj, hsp, hnc, hex⟩ := hi.endJ _ _ _ _ _ hen'
          obtain ⟨hokfs, sp', hsp', _, hgd⟩ := hg.j _ _ _ _ hj
          cases huniq _ _ _ hsp hsp'
          have hfg : P.icf.funOf eP = g := by
            rw [← hwf.start_fun _ _ hsp, hwf.start_fun _ _ h4]
          refine hf'good.snoc hR (hR.ok_extend _ _ _ _ _ (hR.ok_extend _ _ _ _ _
            (hP.call _ _ _ _ h1 h2 h5) hokfs) (hP.ret _ _ _ _ _ _ (.inr ⟨h1, h2⟩) hex hfg h6 h7)) (hwf.ret_fun _ _ h6) ?_
          exact slr_call hP hR h1 h2 h3 h4 h5 hokfs hgd hnc hex hfg h6 h7
        | @exit c ds r d4 d5 d3 f3 h1 h2 hc hr hd4 hd5 hj _ =>
          obtain ⟨sp, hsp, hmem⟩ := mem_incMap hc
          have hinc : HasInc s.incoming sp d1 c d4 := by
            unfold incomingAt at hmem
            rw [huI] at hmem
            cases hg : s.incoming.get (sp, d1) with
            | none => simp [hg] at hmem
            | some m =>
              simp only [hg] at hmem
              exact ⟨m, _, hg, AMap.get_of_mem (hi.incNodup _ _ hg) hmem, hd4⟩
          obtain ⟨hcall, ha, _⟩ := hi.incOf _ _ _ _ hinc
          obtain ⟨g, hgc, hsum, hsp', hd1⟩ := mem_incomingAdds.1 ha
          have : g = P.icf.funOf n := by rw [← hwf.start_fun _ _ hsp', hwf.start_fun _ _ hsp]
          subst this
          have hj' := (mem_reverseLookup (by rw [huJ]; exact AMap.nodupKeys_set hi.nodupJ _ _)).1 hj
          have hgood3 := hgj _ _ _ _ hj'
          obtain ⟨_, sp1, hsp1, _, hgd⟩ := hf'good
          cases huniq _ _ _ hsp hsp1
          refine hgood3.snoc hR (hR.ok_extend _ _ _ _ _ (hR.ok_extend _ _ _ _ _
            (hP.call _ _ _ _ hcall hgc hd1) hf'ok) (hP.ret _ _ _ _ _ _ (.inr ⟨hcall, hgc⟩) h2 rfl hr hd5)) (hwf.ret_fun _ _ hr) ?_
          exact slr_call hP hR hcall hgc hsum hsp hd1 hf'ok hgd h1 h2 rfl hr hd5
        | unbal h1 => rw [hfr] at h1; cases h1

theorem okClosed_true (A : EdgeAlg L E) : OkClosed A (fun _ => True) :=
  ⟨trivial, fun _ _ _ _ => trivial, fun _ _ _ _ => trivial, fun _ _ => trivial⟩

omit [DecidableEq N] [DecidableEq D] [JoinLat L] in
theorem okEdges_true (P : Problem N D F L E) : P.OkEdges (fun _ => True) :=
  ⟨fun _ _ _ _ _ _ => trivial, fun _ _ _ _ _ _ => trivial, fun _ _ _ _ _ _ _ _ => trivial,
   fun _ _ _ _ _ _ => trivial, fun _ _ _ _ _ _ _ _ _ => trivial⟩

omit [DecidableEq N] [DecidableEq D] [JoinLat L] in
theorem okEdgesFor_true (P : Problem N D F L E) : P.OkEdgesFor (fun _ _ _ => True) :=
  ⟨fun _ _ _ _ _ _ _ => trivial, fun _ _ _ _ _ _ _ => trivial, fun _ _ _ _ _ _ _ _ _ _ _ => trivial,
   fun _ _ _ _ _ _ _ => trivial, fun _ _ _ _ _ _ _ _ _ => trivial, fun _ _ _ _ _ => trivial⟩

theorem goodInv_reach {P : Problem N D F L E} {ok : D → D → E → Prop} {R : (L → Prop) → L → Prop}
    (hP : P.OkEdgesFor ok) (hwf : P.icf.WF) (huniq : P.icf.UniqueStart)
    (hfr : P.followReturnsPastSeeds = false) (hs : SeedsAtStart P)
    (hR : Justify P.alg ok R) {s : St N D E} (h : Reach P s) : GoodInv P ok R s := by
  induction h with
  | init => exact goodInv_init hR hs
  | step hr h ih => exact goodInv_step hP hwf huniq hfr hR (inv_reach (okClosed_true _).toFor (okEdges_true _).toFor hwf hr) ih h

end
end Phasar.IDE
