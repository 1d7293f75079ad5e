import Verif.Analysis.TaintStep
import Verif.Analysis.TaintExec
import Verif.IDE.Props
/-!
# C51: what the taint analysis reports
-/
set_option linter.unusedSectionVars false
namespace Phasar.Taint
open Phasar Phasar.IDE FlowFn

variable {p : Prog}

theorem C51.ifds : IsIFDS p.problem where
  alg := rfl
  normal _ _ _ _ := rfl
  call _ _ _ _ := rfl
  ret _ _ _ _ _ _ := rfl
  ctr _ _ _ _ := rfl
  sum _ _ _ _ := rfl
  seeds n facts h d v hd := by
    obtain ⟨sp, _, e⟩ := List.mem_map.1 h
    cases e
    rcases List.mem_cons.1 hd with h | h
    · cases h; rfl
    · split at h
      · obtain ⟨k, _, e⟩ := List.mem_map.1 h
        cases e; rfl
      · cases h

theorem C51.seeds (wf : p.WF) : SeedsAtStart p.problem := by
  intro n facts h
  obtain ⟨sp, hsp, e⟩ := List.mem_map.1 h
  cases e
  exact wf.seeds _ hsp

/-- C51 (partial: the restrictions of `Fit` and `MovesUnaliased`, executions in which arithmetic, phi and select give untainted
results): after the solver has ended, every operand of a statement that is tainted when an execution arrives there is among
`ifdsResultsAt` of the statement. -/
theorem C51_operands_partial (wf : p.WF) (wc : p.WFCalls) (fit : p.Fit) (hal : p.AliasSound false) (hun : p.MovesUnaliased false)
    {st : St Nat Val (EF Empty BinaryDomain)} {w : VS Nat Val BinaryDomain} (h : Solved p.problem st w) {t : CState}
    (ht : p.Reached false t) {v : Val} (hv : v ∈ p.operands t.n) (hot : p.Tainted t.regs t.mem v) : ifdsResultsAt w t.n v := by
  obtain ⟨s, hs, hst⟩ := ht
  obtain ⟨n0, d0, h0, h1⟩ := (inv_steps wf wc fit hal hun hs hst).act.operand wf hv hot
  exact C01_ifds_complete C51.ifds wf.icf (C51.seeds wf) h _ _ ⟨n0, d0, _, h0, h1⟩

theorem C51.reported (wc : p.WFCalls) (fit : p.Fit) {w : VS Nat Val BinaryDomain} {t : CState} {v : Val}
    (hl : p.Leak t v) (h : ifdsResultsAt w t.n v) : p.Reported w t.n v := by
  obtain ⟨hc, hv, hot, f, hf, hs⟩ := hl
  refine ⟨hc, wc.ret _ hc, h, f, hf, ?_⟩
  unfold Prog.records
  have hsw : p.swift f = false := by
    cases hsw : p.swift f
    · rfl
    · exact absurd hs (fit.library _ f v hc hf (.inl hsw)).2.1
  rw [hsw]
  obtain ⟨k, rfl⟩ := tainted_node hot
  simp [mem_collectLeak.2 hs]

/-- C51 (partial, as above): every leak of an execution is among the reported leaks. -/
theorem C51_complete_partial (wf : p.WF) (wc : p.WFCalls) (fit : p.Fit) (hal : p.AliasSound false) (hun : p.MovesUnaliased false)
    {st : St Nat Val (EF Empty BinaryDomain)} {w : VS Nat Val BinaryDomain} (h : Solved p.problem st w) {t : CState}
    (ht : p.Reached false t) {v : Val} (hl : p.Leak t v) : p.Reported w t.n v :=
  C51.reported wc fit hl (C51_operands_partial wf wc fit hal hun h ht (by rw [args_operands wf hl.1]; exact hl.2.1) hl.2.2.1)

/-! ## With `autoAddZero` -/

theorem C51.mem_zeroed {z d d' : Val} {f : Val → List Val} (h : d' ∈ f d) : d' ∈ IDE.zeroed z f d := by
  unfold IDE.zeroed
  split
  · split
    · exact h
    · exact List.mem_append_left _ h
  · exact h

theorem C51.autoZero_steps {a b : List Nat × Nat × Val} (h : FSteps p.problem a b) : FSteps (autoZero p.problem) a b := by
  induction h with
  | refl => exact .refl _
  | tail _ hst ih =>
    refine .tail ih ?_
    cases hst with
    | normal h1 h2 h3 => exact .normal h1 h2 (C51.mem_zeroed h3)
    | call h1 h2 h3 h4 h5 => exact .call h1 h2 h3 h4 (C51.mem_zeroed h5)
    | ret h1 h2 h3 h4 => exact .ret h1 h2 h3 (C51.mem_zeroed h4)
    | callToRet h1 h2 h3 => exact .callToRet h1 h2 (C51.mem_zeroed h3)
    | summary h1 h2 h3 h4 h5 => exact .summary h1 h2 h3 h4 h5

/-- C51 (partial, as above): the same when the solver adds the zero fact to the flow functions itself, which is the default. -/
theorem C51_complete_auto_partial (wf : p.WF) (wc : p.WFCalls) (fit : p.Fit) (hal : p.AliasSound false)
    (hun : p.MovesUnaliased false) {st : St Nat Val (EF Empty BinaryDomain)} {w : VS Nat Val BinaryDomain}
    (h : Solved (autoZero p.problem) st w) {t : CState} (ht : p.Reached false t) {v : Val} (hl : p.Leak t v) :
    p.Reported w t.n v := by
  obtain ⟨s, hs, hst⟩ := ht
  obtain ⟨n0, d0, h0, h1⟩ := (inv_steps wf wc fit hal hun hs hst).act.operand wf
    (by rw [args_operands wf hl.1]; exact hl.2.1) hl.2.2.1
  have hI : IsIFDS (autoZero p.problem) := { C51.ifds (p := p) with }
  exact C51.reported wc fit hl (C01_ifds_complete hI wf.icf (C51.seeds wf) h _ _ ⟨n0, d0, _, h0, C51.autoZero_steps h1⟩)

/-! ## Finite programs -/

/-- The program is finite: the statements `S` and the values `K` are all that can be reached, and functions that are not analysed
have no body. -/
structure Prog.Bounded (p : Prog) (S : List Nat) (K : List Val) : Prop where
  entries : ∀ n ∈ p.entries, n ∈ S
  succs : ∀ n ∈ S, ∀ n' ∈ p.icf.succs n, n' ∈ S
  starts : ∀ n ∈ S, ∀ f ∈ p.icf.callees n, ∀ sp ∈ p.icf.starts f, sp ∈ S
  rets : ∀ n ∈ S, ∀ r ∈ p.icf.retSites n, r ∈ S
  zero : .zero ∈ K
  results : ∀ n ∈ S, .node n ∈ K
  operands : ∀ n ∈ S, ∀ v ∈ p.operands n, v ∈ K
  params : ∀ n ∈ S, ∀ f ∈ p.icf.callees n, ∀ k ∈ p.params f, .node k ∈ K
  entryParams : ∀ n ∈ p.entries, ∀ k ∈ p.params (p.icf.funOf n), .node k ∈ K
  sources : ∀ g, p.srcCB = some g → ∀ n ∈ S, ∀ v ∈ g n, v ∈ K
  aliases : ∀ v ∈ K, ∀ n ∈ S, ∀ a ∈ p.aliases v, ∀ x ∈ p.aliasFacts n a, x ∈ K
  noBody : ∀ n f, f ∈ p.icf.callees n → p.External n f → p.icf.starts f = []

theorem C51.args_sub {n : Nat} {v : Val} (h : v ∈ p.args n) : v ∈ p.operands n := by
  unfold Prog.args at h
  unfold Prog.operands
  split at h
  · rename_i as hi; rw [hi]; exact h
  · cases h

theorem C51.populate_bounded {S : List Nat} {K : List Val} (hb : p.Bounded S K) {facts : List Val} {n : Nat} (hn : n ∈ S)
    (hf : ∀ v ∈ facts, v ∈ K) {x : Val} (hx : x ∈ p.populate facts n) : x ∈ K := by
  rcases mem_populate.1 hx with h | ⟨v, hv, a, ha, h⟩
  · exact hf x h
  · exact hb.aliases v (hf v hv) n hn a ha x h

theorem C51.storeGen_cases {n : Nat} {v ptr x : Val} (h : x ∈ p.storeGen n v ptr) : x = v ∨ x ∈ p.populate [ptr] n := by
  unfold Prog.storeGen at h
  simp only at h
  split at h
  · exact FSet.mem_insert.1 h
  · exact .inr h

theorem C51.tk_cases {to f s t : Val} (h : t ∈ p.transferAndKill to f s) : t = s ∨ t = to ∧ s = f := by
  unfold Prog.transferAndKill transferFlow at h
  cases hu : p.twoUses f <;> rw [hu] at h <;> simp only [if_true, Bool.false_eq_true, if_false] at h <;>
    (repeat' split at h) <;> simp only [C50.mem_ofList, List.mem_cons, List.not_mem_nil, or_false] at h <;> grind

theorem C51.tk2_cases {to f1 f2 s t : Val} (h : t ∈ p.transferAndKillTwo to f1 f2 s) : t = s ∨ t = to ∧ (s = f1 ∨ s = f2) := by
  unfold Prog.transferAndKillTwo at h
  cases hu1 : p.twoUses f1 <;> cases hu2 : p.twoUses f2 <;> rw [hu1, hu2] at h <;>
    simp only [if_true, Bool.true_eq_false, if_false] at h <;>
    (repeat' split at h) <;> simp only [C50.mem_ofList, List.mem_cons, List.not_mem_nil, or_false] at h <;> grind

theorem C51.normal_cases {n n' : Nat} {s t : Val} (h : t ∈ p.normalFlow n n' s) :
    t = s ∨ (t = .node n ∧ s ∈ p.operands n) ∨
      ∃ v ptr, p.inst n = .store v ptr ∧ s = v ∧ (t = v ∨ t ∈ p.populate [ptr] n) := by
  unfold Prog.normalFlow at h
  unfold Prog.operands
  cases hi : p.inst n with
  | store v ptr =>
    rw [hi] at h
    dsimp only at h
    split at h
    · cases h
    · split at h
      · rename_i hv
        exact .inr (.inr ⟨v, ptr, rfl, hv.symm, C51.storeGen_cases h⟩)
      · exact .inl (by simpa using h)
  | load v =>
    rw [hi] at h
    rcases C51.tk_cases h with h | ⟨h, h'⟩
    · exact .inl h
    · exact .inr (.inl ⟨h, by simp [h']⟩)
  | gep v =>
    rw [hi] at h
    rcases C51.tk_cases h with h | ⟨h, h'⟩
    · exact .inl h
    · exact .inr (.inl ⟨h, by simp [h']⟩)
  | extract v =>
    rw [hi] at h
    rcases C51.tk_cases h with h | ⟨h, h'⟩
    · exact .inl h
    · exact .inr (.inl ⟨h, by simp [h']⟩)
  | insert a v =>
    rw [hi] at h
    rcases C51.tk2_cases h with h | ⟨h, h'⟩
    · exact .inl h
    · exact .inr (.inl ⟨h, by simpa using h'⟩)
  | cast v =>
    rw [hi] at h
    dsimp only [transferFlow] at h
    (repeat' split at h) <;> simp only [C50.mem_ofList, List.mem_cons, List.not_mem_nil, or_false] at h <;> grind
  | alloca => rw [hi] at h; exact .inl (by simpa [identityFlow] using h)
  | op ops => rw [hi] at h; exact .inl (by simpa [identityFlow] using h)
  | call as => rw [hi] at h; exact .inl (by simpa [identityFlow] using h)
  | ret v => rw [hi] at h; exact .inl (by simpa [identityFlow] using h)

theorem C51.call_cases {n f : Nat} {s t : Val} (h : t ∈ p.callFlow n f s) :
    t = s ∨ s ∈ p.args n ∧ ∃ k ∈ p.params f, t = .node k := by
  unfold Prog.callFlow at h
  split at h
  · cases h
  · obtain ⟨_, ⟨rfl, _⟩ | ⟨i, a, e, ha, hp, _⟩ | ⟨e, _⟩⟩ := (C50_callee ..).1 h
    · exact .inl rfl
    · simp only [Prog.callee, List.getElem?_map, Option.map_eq_some_iff] at e
      obtain ⟨k, hk, rfl⟩ := e
      have : a = s := of_decide_eq_true hp
      exact .inr ⟨this ▸ List.mem_of_getElem? ha, k, List.mem_of_getElem? hk, rfl⟩
    · exact absurd e List.not_mem_nil

theorem C51.ret_cases {c f e r : Nat} {s t : Val} (h : t ∈ p.retFlow c f e r s) :
    ∃ u, (u = s ∨ (s ≠ .zero ∧ u ∈ p.args c) ∨ (p.retVal e = some s ∧ u = .node c)) ∧ t ∈ p.populate [u] c := by
  have key : ∀ u, u ∈ mapFactsToCaller p.ir (.node c) (p.args c) (p.callee f) (p.retVal e)
      (fun q s => decide (q = s) && p.ptrTy q) (fun v s => decide (v = s)) true true s →
      u = s ∨ (s ≠ .zero ∧ u ∈ p.args c) ∨ (p.retVal e = some s ∧ u = .node c) := by
    intro u hu
    rcases (C50_caller_partial ..).1 hu with ⟨rfl, _⟩ | ⟨i, q, e1, e2, e3⟩ | ⟨⟨a, e, _⟩, _⟩ | ⟨v, e1, e2, rfl⟩
    · exact .inl rfl
    · rw [Bool.and_eq_true, decide_eq_true_eq] at e3
      refine .inr (.inl ⟨?_, List.mem_of_getElem? e2⟩)
      rintro rfl
      rw [e3.1] at e3
      cases e3.2
    · exact absurd e List.not_mem_nil
    · rw [decide_eq_true_eq] at e2
      exact .inr (.inr ⟨e2 ▸ e1, rfl⟩)
  unfold Prog.retFlow at h
  rcases mem_populate.1 h with h | ⟨u, hu, a, ha, h⟩
  · exact ⟨t, key t h, mem_populate.2 (.inl (List.mem_singleton.2 rfl))⟩
  · exact ⟨u, key u hu, mem_populate.2 (.inr ⟨u, List.mem_singleton.2 rfl, a, ha, h⟩)⟩

theorem C51.fdff_cases {n f : Nat} {m : List (Nat × List Target)} {s t : Val} (h : t ∈ p.fdffFlow n f m s) :
    t = s ∨ (s ∈ p.args n ∧ (t = .node n ∨ t ∈ p.args n)) := by
  unfold Prog.fdffFlow at h
  rcases FSet.mem_insert.1 h with h | h
  · exact .inl h
  · have key : ∀ (l : List (Val × Nat)) (r : List Val), (∀ x ∈ l, x.1 ∈ p.args n) →
        (∀ x ∈ r, s ∈ p.args n ∧ (x = .node n ∨ x ∈ p.args n)) →
        ∀ x ∈ l.foldl (fun r x => if s = x.1 then FSet.insertAll r ((lookupParam m x.2).flatMap (p.targetFacts n)) else r) r,
          s ∈ p.args n ∧ (x = .node n ∨ x ∈ p.args n) := by
      intro l
      induction l with
      | nil => exact fun r _ hr => hr
      | cons y l ih =>
        intro r hl hr
        refine ih _ (fun x hx => hl x (List.mem_cons_of_mem _ hx)) ?_
        intro x hx
        dsimp only at hx
        split at hx
        · rename_i hs
          rcases FSet.mem_insertAll.1 hx with hx | hx
          · obtain ⟨tg, _, hx⟩ := List.mem_flatMap.1 hx
            refine ⟨hs ▸ hl y List.mem_cons_self, ?_⟩
            cases tg with
            | ret => exact .inl (by simpa [Prog.targetFacts] using hx)
            | param j =>
              simp only [Prog.targetFacts, Option.mem_toList] at hx
              exact .inr (List.mem_of_getElem? hx)
          · exact hr x hx
        · exact hr x hx
    exact .inr (key _ [] (fun x hx => (List.of_mem_zip (show (x.1, x.2) ∈ _ from hx)).1) (by simp) t h)

theorem C51.mem_generateIf {v s t : Val} {q : Val → Bool} (h : t ∈ generateFlowIf v q s) : t = s ∨ q s = true ∧ t = v := by
  unfold generateFlowIf at h
  split at h <;> simp only [C50.mem_ofList, List.mem_cons, List.not_mem_nil, or_false] at h <;> grind

theorem C51.summary_cases {n f : Nat} {g : FF Val} (hg : p.summaryFlow n f = some g) {s t : Val} (h : t ∈ g s) :
    t = s ∨ (s ∈ p.args n ∧ (t = .node n ∨ t ∈ p.args n)) ∨ (s = .zero ∧ t ∈ p.gen n f) := by
  unfold Prog.summaryFlow at hg
  split at hg
  · cases hg
    rcases C51.mem_generateIf h with h1 | ⟨h1, rfl⟩
    · exact .inl h1
    · rw [Bool.or_eq_true, decide_eq_true_eq, decide_eq_true_eq] at h1
      refine .inr (.inl ⟨?_, .inl rfl⟩)
      rcases h1 with h | h <;> exact List.mem_of_getElem? h
  · split at hg
    · obtain ⟨m, _, rfl⟩ := Option.map_eq_some_iff.1 hg
      rcases C51.fdff_cases h with h | h
      · exact .inl h
      · exact .inr (.inl h)
    · split at hg
      · cases hg
        dsimp only at h
        split at h
        · cases h
        · exact .inl (by simpa using h)
      · cases hg
        dsimp only at h
        split at h
        · rename_i hs
          rcases FSet.mem_insert.1 h with h | h
          · exact .inl (h.trans hs.symm)
          · exact .inr (.inr ⟨hs, h⟩)
        · exact .inl (by simpa using h)

theorem C51.gen_bounded {S : List Nat} {K : List Val} (hb : p.Bounded S K) {n f : Nat} (hn : n ∈ S) {x : Val}
    (hx : x ∈ p.gen n f) : x ∈ K := by
  refine C51.populate_bounded hb hn (fun v hv => ?_) hx
  rcases mem_collectGen.1 hv with ⟨g, hg, hv⟩ | ⟨_, rfl⟩ | ⟨i, k, _, _, ha⟩
  · exact hb.sources g hg n hn v hv
  · exact hb.results n hn
  · exact hb.operands n hn v (C51.args_sub (List.mem_of_getElem? ha))

/-- The facts that can be reached in a finite program. -/
theorem C51.reach_bounded {S : List Nat} {K : List Val} (hb : p.Bounded S K) {n : Nat} {d : Val}
    (h : FactReachable p.problem n d) : n ∈ S ∧ d ∈ K := by
  obtain ⟨n0, d0, stk, ⟨facts, hs, hd0⟩, hr⟩ := h
  have key : ∀ a b, FSteps p.problem a b → (∀ c ∈ a.1, c ∈ S) → a.2.1 ∈ S → a.2.2 ∈ K →
      (∀ c ∈ b.1, c ∈ S) ∧ b.2.1 ∈ S ∧ b.2.2 ∈ K := by
    intro a b hab h1 h2 h3
    induction hab with
    | refl => exact ⟨h1, h2, h3⟩
    | tail _ hst ih =>
      obtain ⟨i1, i2, i3⟩ := ih
      have hops : ∀ {n : Nat}, n ∈ S → ∀ {v : Val}, v ∈ p.args n → v ∈ K :=
        fun hn v hv => hb.operands _ hn _ (C51.args_sub hv)
      cases hst with
      | @normal stk n d n' d' hc hn hd =>
        refine ⟨i1, hb.succs n i2 n' hn, ?_⟩
        rcases C51.normal_cases (n' := n') hd with rfl | ⟨rfl, _⟩ | ⟨v, ptr, hi, rfl, h⟩
        · exact i3
        · exact hb.results n i2
        · rcases h with rfl | h
          · exact i3
          · refine C51.populate_bounded hb i2 (fun v hv => ?_) h
            rw [List.mem_singleton.1 hv]
            exact hb.operands n i2 ptr (by unfold Prog.operands; rw [hi]; simp)
      | @call stk n d g sp d' hc hg hsum hsp hd =>
        refine ⟨fun c hc => ?_, hb.starts n i2 g hg sp hsp, ?_⟩
        · rcases List.mem_cons.1 hc with rfl | hc
          · exact i2
          · exact i1 c hc
        · rcases C51.call_cases hd with rfl | ⟨_, k, hk, rfl⟩
          · exact i3
          · exact hb.params n i2 g hg k hk
      | @ret stk c n d r d' hc hex hr hd =>
        have hcS := i1 c List.mem_cons_self
        refine ⟨fun c' hc' => i1 c' (List.mem_cons_of_mem _ hc'), hb.rets c hcS r hr, ?_⟩
        obtain ⟨u, hu, hd⟩ := C51.ret_cases (r := r) hd
        refine C51.populate_bounded hb hcS (fun v hv => ?_) hd
        rw [List.mem_singleton.1 hv]
        rcases hu with rfl | ⟨_, hu⟩ | ⟨_, rfl⟩
        · exact i3
        · exact hops hcS hu
        · exact hb.results c hcS
      | @callToRet stk n d r d' hc hr hd =>
        refine ⟨i1, hb.rets n i2 r hr, ?_⟩
        change d' ∈ p.ctrFlow n r d at hd
        rw [((C50_alongside ..).1 hd).1]; exact i3
      | @summary stk n d g sum r d' hc hg hsum hr hd =>
        refine ⟨i1, hb.rets n i2 r hr, ?_⟩
        rcases C51.summary_cases hsum hd with rfl | ⟨_, rfl | h⟩ | ⟨_, h⟩
        · exact i3
        · exact hb.results n i2
        · exact hops i2 h
        · exact C51.gen_bounded hb i2 h
  obtain ⟨sp, hsp, e⟩ := List.mem_map.1 hs
  cases e
  refine (key _ _ hr (fun c hc => absurd hc List.not_mem_nil) (hb.entries _ hsp) ?_).2
  rcases hd0 with hd0 | hd0
  · obtain ⟨x, hx, rfl⟩ := List.mem_map.1 hd0
    rcases List.mem_cons.1 hx with rfl | hx
    · exact hb.zero
    · split at hx
      · obtain ⟨k, hk, rfl⟩ := List.mem_map.1 hx
        exact hb.entryParams _ hsp k hk
      · cases hx
  · rw [show d0 = .zero from hd0]; exact hb.zero

theorem C51.disjoint (fit : p.Fit) (hb : ∀ n f, f ∈ p.icf.callees n → p.External n f → p.icf.starts f = []) :
    SummariesDisjoint p.problem := by
  intro n g sm hg hs
  refine .inl (hb n g hg (Classical.byContradiction fun hx => ?_))
  have : p.problem.summaryFlow n g = none := internal_summary fit hx
  rw [this] at hs; cases hs

/-- C51: the solver ends on every finite program, in any processing order. -/
theorem C51_terminates (wf : p.WF) (fit : p.Fit) (huniq : p.icf.UniqueStart) {S : List Nat} {K : List Val} (hb : p.Bounded S K) :
    Acc (fun t s => SStep p.problem s t) (init p.problem) ∧
    (∀ s, Reach p.problem s → Acc (fun w v => VStep p.problem s v w) (submitInitialValues p.problem s)) ∧
    ∃ fuel s w, solve p.problem fuel = some (s, w) := by
  refine C05_terminates_reachable (ok := fun f => f = .id) ifdsAlg_sound.okClosed C51.ifds.okEdges wf.icf huniq rfl
    (C51.seeds wf) (C51.disjoint fit hb.noBody) (rankE := fun _ => 0) (H := 0)
    ⟨fun _ _ => Nat.le_refl _, fun e f he hf h => by subst he; subst hf; exact absurd h (by show ifdsAlg.eqE (ifdsAlg.combine .id .id) .id ≠ false; decide)⟩ (rankL := fun x => x.toNat)
    (by intro a b; cases a <;> cases b <;> decide) (S.flatMap fun n => K.map fun d => (n, d)) fun n d h => ?_
  obtain ⟨h1, h2⟩ := C51.reach_bounded hb h
  exact List.mem_flatMap.2 ⟨n, h1, List.mem_map.2 ⟨d, h2, rfl⟩⟩

/-- C51 (partial, as above): so the analysis of a finite program ends and reports every leak. -/
theorem C51_total_partial (wf : p.WF) (wc : p.WFCalls) (fit : p.Fit) (hal : p.AliasSound false) (hun : p.MovesUnaliased false)
    (huniq : p.icf.UniqueStart) {S : List Nat} {K : List Val} (hb : p.Bounded S K) :
    ∃ fuel st w, solve p.problem fuel = some (st, w) ∧
      ∀ t v, p.Reached false t → p.Leak t v → p.Reported w t.n v := by
  obtain ⟨_, _, fuel, st, w, h⟩ := C51_terminates wf fit huniq hb
  exact ⟨fuel, st, w, h, fun t v ht hl => C51_complete_partial wf wc fit hal hun (solve_sound h) ht hl⟩

/-! ## Without sources -/

theorem C51.zero_only (wf : p.WF) (hal : ∀ a ∈ p.aliases .zero, a = .zero) (hsrc : ∀ n f v, ¬ p.GenAt n f v)
    (hmain : p.taintMain = false) {n : Nat} {d : Val} (h : FactReachable p.problem n d) : d = .zero := by
  obtain ⟨n0, d0, stk, ⟨facts, hs, hd0⟩, hr⟩ := h
  have hargs : ∀ n, Val.zero ∉ p.args n := fun n hn => wf.operand n (C51.args_sub hn)
  have hpop : ∀ n t, t ∈ p.populate [.zero] n → t = .zero := by
    intro n t ht
    rcases mem_populate.1 ht with h | ⟨v, hv, a, ha, h⟩
    · exact List.mem_singleton.1 h
    · rw [List.mem_singleton.1 hv] at ha
      rw [hal a ha] at h
      simp [Prog.aliasFacts, Prog.canSkip, Prog.isConstData] at h
  have key : ∀ a b, FSteps p.problem a b → a.2.2 = .zero → b.2.2 = .zero := by
    intro a b hab h1
    induction hab with
    | refl => exact h1
    | tail _ hst ih =>
      cases hst with
      | @normal stk n d n' d' hc hn hd =>
        simp only at ih; subst ih
        rcases C51.normal_cases (n' := n') hd with rfl | ⟨_, h⟩ | ⟨v, ptr, hi, h, _⟩
        · rfl
        · exact absurd h (wf.operand n)
        · refine absurd ?_ (wf.operand n)
          unfold Prog.operands; rw [hi, ← h]; simp
      | @call stk n d g sp d' hc hg hsum hsp hd =>
        simp only at ih; subst ih
        rcases C51.call_cases hd with rfl | ⟨h, _⟩
        · rfl
        · exact absurd h (hargs n)
      | @ret stk c n d r d' hc hex hr hd =>
        simp only at ih; subst ih
        obtain ⟨u, rfl | ⟨h, _⟩ | ⟨h, _⟩, hd⟩ := C51.ret_cases (r := r) hd
        · exact hpop _ _ hd
        · exact absurd rfl h
        · refine absurd ?_ (wf.operand n)
          unfold Prog.retVal at h
          unfold Prog.operands
          split at h
          · rename_i hi; rw [hi, h]; simp
          · cases h
      | @callToRet stk n d r d' hc hr hd =>
        simp only at ih; subst ih
        change d' ∈ p.ctrFlow n r .zero at hd
        exact ((C50_alongside ..).1 hd).1
      | @summary stk n d g sum r d' hc hg hsum hr hd =>
        simp only at ih; subst ih
        rcases C51.summary_cases hsum hd with rfl | ⟨h, _⟩ | ⟨_, h⟩
        · rfl
        · exact absurd h (hargs n)
        · rw [gen_eq_nil.2 (hsrc n g)] at h; cases h
  obtain ⟨sp, hsp, e⟩ := List.mem_map.1 hs
  cases e
  refine key _ _ hr ?_
  rcases hd0 with hd0 | hd0
  · rw [hmain] at hd0; simpa using hd0
  · exact hd0

/-- C51: in a program without sources the analysis reports nothing, whatever the aliases, sinks, sanitizers and library
summaries are. -/
theorem C51_no_source (wf : p.WF) (huniq : p.icf.UniqueStart) (hsum : SummariesDisjoint p.problem)
    (hal : ∀ a ∈ p.aliases .zero, a = .zero) (hsrc : ∀ n f v, ¬ p.GenAt n f v)
    (hsink : ∀ g n, p.sinkCB = some g → Val.zero ∉ g n) (hmain : p.taintMain = false)
    {st : St Nat Val (EF Empty BinaryDomain)} {w : VS Nat Val BinaryDomain} (h : Solved p.problem st w) (n : Nat) (v : Val) :
    ¬ p.Reported w n v := by
  rintro ⟨_, _, hr, f, _, hrec⟩
  have hz := C51.zero_only wf hal hsrc hmain ((C01_ifds_exact C51.ifds wf.icf huniq rfl (C51.seeds wf) hsum h n v).1 hr)
  subst hz
  unfold Prog.records at hrec
  split at hrec
  · cases hrec
  · split at hrec
    · rcases mem_collectLeak.1 (of_decide_eq_true hrec) with ⟨g, hg, h⟩ | ⟨i, k, _, _, h⟩
      · exact hsink g n hg h
      · exact wf.operand n (C51.args_sub (List.mem_of_getElem? h))
    · simp at hrec

/-- C51: a call is not followed into the callee exactly if the callee has no body, the configuration marks one of its parameters as source
or sink, or a call-back names the call or one of its arguments. -/
theorem C51_not_entered (n f : Nat) : (∀ s, p.callFlow n f s = []) ↔ p.isDecl f = true ∨
    (∃ k ∈ p.params f, p.isSource k = true ∨ p.isSink k = true) ∨
    ∃ g v, (p.srcCB = some g ∨ p.sinkCB = some g) ∧ v ∈ g n ∧ (v = .node n ∨ v ∈ p.args n) := by
  have hcb : ∀ cb, p.cbHits cb n = true ↔ ∃ g v, cb = some g ∧ v ∈ g n ∧ (v = .node n ∨ v ∈ p.args n) := by
    intro cb
    cases cb with
    | none => exact ⟨(fun h => by cases h), (fun ⟨g, v, h, _⟩ => by cases h)⟩
    | some g =>
      unfold Prog.cbHits
      dsimp only
      constructor
      · intro h
        split at h
        · cases h
        · split at h
          · exact ⟨g, _, rfl, ‹_›, .inl rfl⟩
          · obtain ⟨a, ha, h⟩ := List.any_eq_true.1 h
            exact ⟨g, a, rfl, of_decide_eq_true h, .inr ha⟩
      · rintro ⟨g', v, hg, hv, h⟩
        cases hg
        rw [if_neg (fun e => by rw [e] at hv; cases hv)]
        split
        · rfl
        · rcases h with rfl | h
          · contradiction
          · exact List.any_eq_true.2 ⟨v, h, decide_eq_true hv⟩
  have key : (∀ s, p.callFlow n f s = []) ↔ p.isDecl f = true ∨ (p.isSourceCall n f || p.isSinkCall n f) = true := by
    unfold Prog.callFlow
    constructor
    · intro h
      by_cases hc : (p.isSourceCall n f || p.isSinkCall n f) = true
      · exact .inr hc
      · refine .inl (Classical.byContradiction fun hd => ?_)
        have hm : Val.zero ∈ FlowFn.mapFactsToCallee p.ir (p.args n) (p.callee f) (fun a s => decide (a = s)) true true .zero :=
          (FlowFn.C50_callee ..).2 ⟨(Bool.not_eq_true _ ▸ hd : p.isDecl f = false), .inl ⟨rfl, .inl ⟨rfl, rfl⟩⟩⟩
        have := h .zero
        rw [if_neg hc] at this
        rw [this] at hm
        cases hm
    · rintro (h | h) s
      · split
        · rfl
        · unfold FlowFn.mapFactsToCallee
          exact if_pos h
      · rw [if_pos h]
        rfl
  rw [key, Bool.or_eq_true]
  unfold Prog.isSourceCall Prog.isSinkCall
  rw [Bool.or_eq_true, Bool.or_eq_true, hcb, hcb, List.any_eq_true, List.any_eq_true]
  constructor
  · rintro (hd | (⟨k, hk, h⟩ | ⟨g, v, hg, h⟩) | (⟨k, hk, h⟩ | ⟨g, v, hg, h⟩))
    · exact .inl hd
    · exact .inr (.inl ⟨k, hk, .inl h⟩)
    · exact .inr (.inr ⟨g, v, .inl hg, h⟩)
    · exact .inr (.inl ⟨k, hk, .inr h⟩)
    · exact .inr (.inr ⟨g, v, .inr hg, h⟩)
  · rintro (hd | ⟨k, hk, h | h⟩ | ⟨g, v, hg | hg, h⟩)
    · exact .inl hd
    · exact .inr (.inl (.inl ⟨k, hk, h⟩))
    · exact .inr (.inr (.inl ⟨k, hk, h⟩))
    · exact .inr (.inl (.inr ⟨g, v, hg, h⟩))
    · exact .inr (.inr (.inr ⟨g, v, hg, h⟩))

/-! ## Alias information for the examples -/

/-- The value is no global. -/
def Prog.Local (p : Prog) (v : Val) : Prop := ∀ k, v = .node k → p.isConst k = false

/-- Only the registers `A` can hold an address, of objects that are not global, and the alias analysis puts them into one class. -/
structure Prog.OneClass (p : Prog) (A : List Nat) : Prop where
  inst : ∀ n, match p.inst n with
    | .alloca => n ∈ A
    | .gep v | .extract v | .cast v => n ∈ A ∧ p.Local v
    | .call as => n ∈ A ∧ ∀ a ∈ as, p.Local a
    | .ret v => ∀ a ∈ v, p.Local a
    | _ => True
  isCall : ∀ n, p.icf.isCall n = true → ∃ as, p.inst n = .call as
  params : ∀ f, ∀ k ∈ p.params f, k ∈ A
  entries : ∀ n ∈ p.entries, p.params (p.icf.funOf n) = []
  aliases : ∀ k1 ∈ A, ∀ k2 ∈ A, k1 ≠ k2 → .node k2 ∈ p.aliases (.node k1)

/-- What such a program keeps: addresses are in the registers `A` and belong to objects. -/
def C51.Cls (A : List Nat) (regs : Nat → RVal) : Prop := ∀ k ℓ, regs k = .ptr ℓ → k ∈ A ∧ ∃ i, ℓ = .obj i

theorem C51.cls_val {A : List Nat} {regs : Nat → RVal} (h : C51.Cls A regs) {v : Val} (hv : p.Local v) {ℓ : Loc}
    (e : p.val regs v = .ptr ℓ) : ∃ i, ℓ = .obj i := by
  cases v with
  | zero => cases e
  | lit => cases e
  | node k =>
    rw [val_local (hv k rfl)] at e
    exact (h k ℓ e).2

theorem C51.cls_upd {A : List Nat} {regs : Nat → RVal} (h : C51.Cls A regs) {n : Nat} {x : RVal}
    (hx : ∀ ℓ, x = .ptr ℓ → n ∈ A ∧ ∃ i, ℓ = .obj i) : C51.Cls A (updR regs n x) := by
  intro k ℓ e
  unfold updR at e
  split at e
  · rename_i hk; rw [hk]; exact hx ℓ e
  · exact h k ℓ e

theorem C51.cls_steps (wc : p.WFCalls) {A : List Nat} (hA : p.OneClass A) {s t : CState} (hs : p.Init s) (h : p.CSteps false s t) :
    C51.Cls A t.regs ∧ ∀ fr ∈ t.stk, C51.Cls A fr.regs ∧ fr.c ∈ A := by
  induction h with
  | refl =>
    refine ⟨fun k ℓ e => ?_, fun fr hfr => by rw [hs.stk] at hfr; cases hfr⟩
    rw [hs.regs k (by rw [hA.entries _ hs.entry]; exact List.not_mem_nil)] at e
    cases e
  | tail _ hst ih =>
    obtain ⟨i1, i2⟩ := ih
    cases hst with
    | @normal stk n regs mem next n' x mem' next' hc hn he =>
      refine ⟨C51.cls_upd i1 fun ℓ e => ?_, i2⟩
      have hi := hA.inst n
      cases he with
      | alloca h => rw [h] at hi; cases e; exact ⟨hi, _, rfl⟩
      | store => cases e
      | load => cases e
      | gep h => rw [h] at hi; exact ⟨hi.1, C51.cls_val i1 hi.2 e⟩
      | extract h => rw [h] at hi; exact ⟨hi.1, C51.cls_val i1 hi.2 e⟩
      | insert => cases e
      | cast h => rw [h] at hi; exact ⟨hi.1, C51.cls_val i1 hi.2 e⟩
      | op => cases e
      | opDeep _ h => cases h
    | @call stk n regs mem next f sp regs' hc hf hx hsp hpar hreg hty had =>
      obtain ⟨as, has⟩ := hA.isCall n hc
      have hi := hA.inst n
      rw [has] at hi
      refine ⟨fun k ℓ e => ?_, fun fr hfr => ?_⟩
      · by_cases hk : k ∈ p.params f
        · refine ⟨hA.params f k hk, ?_⟩
          obtain ⟨i, hi'⟩ := List.mem_iff_getElem?.1 hk
          cases ha : (p.args n)[i]? with
          | some a =>
            dsimp only at e
            rw [hpar i k a hi' ha] at e
            refine C51.cls_val i1 (hi.2 a ?_) e
            have := List.mem_of_getElem? ha
            unfold Prog.args at this
            rw [has] at this
            exact this
          | none =>
            have hd : p.isDecl f = false := by
              cases h : p.isDecl f
              · rfl
              · exact absurd (.inl h) hx
            have h1 := List.getElem?_eq_none_iff.1 ha
            have h2 := (List.getElem?_eq_some_iff.1 hi').1
            have h3 := wc.arity n f hf hd
            omega
        · dsimp only at e; rw [hreg k hk] at e; cases e
      · rcases List.mem_cons.1 hfr with rfl | h
        · exact ⟨i1, hi.1⟩
        · exact i2 fr h
    | @ret fr stk n regs mem next r hc he hr =>
      obtain ⟨j1, j2⟩ := i2 fr List.mem_cons_self
      refine ⟨C51.cls_upd j1 fun ℓ e => ⟨j2, ?_⟩, fun g hg => i2 g (List.mem_cons_of_mem _ hg)⟩
      have hi := hA.inst n
      unfold Prog.retVal at e
      split at e
      · rename_i v hv
        split at hv
        · rename_i hi'
          rw [hi', hv] at hi
          exact C51.cls_val i1 (hi v rfl) e
        · cases hv
      · cases e
    | @ext stk n regs mem next f r regs' mem' hc hf hx hr he =>
      refine ⟨fun k ℓ e => ?_, i2⟩
      dsimp only at e
      by_cases hk : k = n
      · subst hk
        obtain ⟨as, has⟩ := hA.isCall k hc
        have hi := hA.inst k
        rw [has] at hi
        refine ⟨hi.1, ?_⟩
        rcases he.result with ⟨t, h⟩ | h
        · rw [h] at e; cases e
        · rw [h] at e; cases e; exact ⟨_, rfl⟩
      · exact i1 k ℓ ((he.addr k ℓ hk).1 e)

theorem C51.alias_class (wc : p.WFCalls) {A : List Nat} (hA : p.OneClass A) : p.AliasSound false := by
  rintro t ⟨s, hs, hst⟩ k1 k2 ℓ h1 h2 hne _
  have hc := (C51.cls_steps wc hA hs hst).1
  cases c1 : p.isConst k1 <;> cases c2 : p.isConst k2
  · rw [val_local c1] at h1
    rw [val_local c2] at h2
    exact hA.aliases k1 (hc k1 _ h1).1 k2 (hc k2 _ h2).1 hne
  · rw [val_local c1] at h1
    rw [val_global c2] at h2
    cases h2; obtain ⟨_, i, h⟩ := hc k1 _ h1; cases h
  · rw [val_global c1] at h1
    rw [val_local c2] at h2
    cases h1; obtain ⟨_, i, h⟩ := hc k2 _ h2; cases h
  · rw [val_global c1] at h1
    rw [val_global c2] at h2
    cases h1; cases h2; exact absurd rfl hne

/-- No instruction copies an address, and every call is external. -/
structure Prog.NoCopies (p : Prog) : Prop where
  inst : ∀ n, match p.inst n with
    | .gep _ | .extract _ | .cast _ => False
    | _ => True
  external : ∀ n f, f ∈ p.icf.callees n → p.External n f
  entries : ∀ n ∈ p.entries, p.params (p.icf.funOf n) = []

/-- What such a program keeps: no two registers hold the same address. -/
structure C51.Apart (t : CState) : Prop where
  stk : t.stk = []
  old : ∀ k ℓ, t.regs k = .ptr ℓ → ∃ i, i < t.next ∧ ℓ = .obj i
  inj : ∀ k1 k2 ℓ, t.regs k1 = .ptr ℓ → t.regs k2 = .ptr ℓ → k1 = k2

theorem C51.apart_steps (hA : p.NoCopies) {s t : CState} (hs : p.Init s) (h : p.CSteps false s t) : C51.Apart t := by
  induction h with
  | refl =>
    have : ∀ k, s.regs k = .sc false := fun k => hs.regs k (by rw [hA.entries _ hs.entry]; exact List.not_mem_nil)
    refine ⟨hs.stk, fun k ℓ e => ?_, fun k1 k2 ℓ e => ?_⟩ <;> (rw [this] at e; cases e)
  | tail _ hst ih =>
    obtain ⟨i0, i1, i2⟩ := ih
    have upd : ∀ (regs regs' : Nat → RVal) (n next : Nat), (∀ k ℓ, regs k = .ptr ℓ → ∃ i, i < next ∧ ℓ = .obj i) →
        (∀ k1 k2 ℓ, regs k1 = .ptr ℓ → regs k2 = .ptr ℓ → k1 = k2) →
        (∀ k ℓ, k ≠ n → regs' k = .ptr ℓ → regs k = .ptr ℓ) → (∀ ℓ, regs' n = .ptr ℓ → ℓ = .obj next) →
        (∀ k ℓ, regs' k = .ptr ℓ → ∃ i, i < next + 1 ∧ ℓ = .obj i) ∧
        (∀ k1 k2 ℓ, regs' k1 = .ptr ℓ → regs' k2 = .ptr ℓ → k1 = k2) := by
      intro regs regs' n next h1 h2 h3 h4
      refine ⟨fun k ℓ e => ?_, fun k1 k2 ℓ e1 e2 => ?_⟩
      · by_cases hk : k = n
        · subst hk; exact ⟨next, Nat.lt_succ_self _, h4 ℓ e⟩
        · obtain ⟨i, hi, h⟩ := h1 k ℓ (h3 k ℓ hk e)
          exact ⟨i, Nat.lt_succ_of_lt hi, h⟩
      · by_cases hk1 : k1 = n <;> by_cases hk2 : k2 = n
        · rw [hk1, hk2]
        · subst hk1
          obtain ⟨i, hi, h⟩ := h1 k2 ℓ (h3 k2 ℓ hk2 e2)
          rw [h4 ℓ e1] at h; cases h; exact absurd hi (Nat.lt_irrefl _)
        · subst hk2
          obtain ⟨i, hi, h⟩ := h1 k1 ℓ (h3 k1 ℓ hk1 e1)
          rw [h4 ℓ e2] at h; cases h; exact absurd hi (Nat.lt_irrefl _)
        · exact h2 k1 k2 ℓ (h3 k1 ℓ hk1 e1) (h3 k2 ℓ hk2 e2)
    have updR_ne : ∀ (regs : Nat → RVal) (n : Nat) (x : RVal), ∀ k ℓ, k ≠ n → updR regs n x k = .ptr ℓ → regs k = .ptr ℓ := by
      intro regs n x k ℓ hk e
      unfold updR at e
      rw [if_neg hk] at e; exact e
    cases hst with
    | @normal stk n regs mem next n' x mem' next' hc hn he =>
      dsimp only at i1 i2
      have data : ∀ t, C51.Apart ⟨stk, n', updR regs n (.sc t), mem', next⟩ := by
        intro t
        have hn : ∀ k ℓ, updR regs n (.sc t) k = .ptr ℓ → regs k = .ptr ℓ := by
          intro k ℓ e
          refine updR_ne regs n _ k ℓ ?_ e
          rintro rfl
          simp [updR] at e
        exact ⟨i0, fun k ℓ e => i1 k ℓ (hn k ℓ e), fun k1 k2 ℓ e1 e2 => i2 k1 k2 ℓ (hn k1 ℓ e1) (hn k2 ℓ e2)⟩
      have hi := hA.inst n
      cases he with
      | alloca h =>
        have := upd regs (updR regs n (.ptr (.obj next))) n next i1 i2 (updR_ne _ _ _) fun ℓ e => by
          simp [updR] at e; exact e.symm
        exact ⟨i0, this.1, this.2⟩
      | store => exact data _
      | load => exact data _
      | gep h => rw [h] at hi; exact hi.elim
      | extract h => rw [h] at hi; exact hi.elim
      | insert => exact data _
      | cast h => rw [h] at hi; exact hi.elim
      | op => exact data _
      | opDeep _ h => cases h
    | call hc hf hx => exact absurd (hA.external _ _ hf) hx
    | ret => cases i0
    | @ext stk n regs mem next f r regs' mem' hc hf hx hr he =>
      have := upd regs regs' n next i1 i2 (fun k ℓ hk e => (he.addr k ℓ hk).1 e) fun ℓ e => by
        rcases he.result with ⟨t, h⟩ | h
        · rw [h] at e; cases e
        · rw [h] at e; cases e; rfl
      exact ⟨i0, this.1, this.2⟩

theorem C51.apart_val {t : CState} (h : C51.Apart t) {k1 k2 : Nat} {ℓ : Loc} (h1 : p.val t.regs (.node k1) = .ptr ℓ)
    (h2 : p.val t.regs (.node k2) = .ptr ℓ) : k1 = k2 := by
  cases c1 : p.isConst k1 <;> cases c2 : p.isConst k2
  · rw [val_local c1] at h1
    rw [val_local c2] at h2
    exact h.inj k1 k2 ℓ h1 h2
  · rw [val_local c1] at h1
    rw [val_global c2] at h2
    cases h2; obtain ⟨i, _, h⟩ := h.old k1 _ h1; cases h
  · rw [val_global c1] at h1
    rw [val_local c2] at h2
    cases h1; obtain ⟨i, _, h⟩ := h.old k2 _ h2; cases h
  · rw [val_global c1] at h1
    rw [val_global c2] at h2
    cases h1; cases h2; rfl

theorem C51.alias_apart (hA : p.NoCopies) : p.AliasSound false := by
  rintro t ⟨s, hs, hst⟩ k1 k2 ℓ h1 h2 hne _
  exact absurd (C51.apart_val (C51.apart_steps hA hs hst) h1 h2) hne

theorem C51.moves_apart (hA : p.NoCopies) : p.MovesUnaliased false := by
  rintro t ⟨s, hs, hst⟩ f _ i j b ℓ _ _ hb k hk _
  cases b with
  | zero => cases hb
  | lit => cases hb
  | node k' => rw [C51.apart_val (C51.apart_steps hA hs hst) hk hb]

/-! ## Examples -/

/-- `int g; int f(int *a) { g = *a; return *a; } int main() { int x, *y = &x; *y = source(); f(&x); sink(g); }` -/
def C51.ex : Tab where
  rows := [{ fn := 0, succs := [1] }, { fn := 0, succs := [2] }, { fn := 0, call := some ([1], [3]) }, { fn := 0, succs := [4] },
    { fn := 0, call := some ([2], [5]) }, { fn := 0, succs := [6] }, { fn := 0, call := some ([3], [7]) }, { fn := 0, exit := true },
    { fn := 2, succs := [9] }, { fn := 2, succs := [10] }, { fn := 2, succs := [11] }, { fn := 2, exit := true }]
  insts := [.alloca, .gep (.node 0), .call [], .store (.node 2) (.node 1), .call [.node 0], .load (.node 30), .call [.node 5],
    .ret none, .load (.node 40), .store (.node 8) (.node 30), .load (.node 40), .ret (some (.node 10))]
  consts := [30]
  ptrs := [0, 1, 30, 40]
  params := [(2, [40]), (3, [41])]
  decls := [1, 3]
  aliases := [[0, 1, 2, 4, 6, 40, 41]]
  sources := [2]
  sinks := [41]

theorem C51.ex_wf : C51.ex.prog.WF := C51.ex.wf (by decide +kernel)
theorem C51.ex_calls : C51.ex.prog.WFCalls := C51.ex.wfCalls (by decide +kernel)
theorem C51.ex_fit : C51.ex.prog.Fit := C51.ex.fit (by decide +kernel)

/-- The conditions of `OneClass` by computation. -/
def Tab.okClass (t : Tab) (A : List Nat) : Bool :=
  let loc : Val → Bool := fun v => match v with | .node k => !t.consts.contains k | _ => true
  t.insts.length == t.rows.length &&
  (List.range t.rows.length).all (fun n => (match t.inst n with
    | .alloca => A.contains n
    | .gep v | .extract v | .cast v => A.contains n && loc v
    | .call as => A.contains n && as.all loc
    | .ret v => v.all loc
    | _ => true)) &&
  t.params.all (fun e => e.2.all A.contains) &&
  t.entries.all (fun n => (t.paramsOf (tabRow t.rows n).fn).isEmpty) &&
  A.all fun k1 => A.all fun k2 => decide (.node k2 ∈ t.prog.aliases (.node k1))

theorem C51.okClass {t : Tab} (wf : t.prog.WF) {A : List Nat} (h : t.okClass A = true) : t.prog.OneClass A := by
  unfold Tab.okClass at h
  simp only [Bool.and_eq_true, beq_iff_eq] at h
  obtain ⟨⟨⟨⟨h0, h1⟩, h2⟩, h3⟩, h4⟩ := h
  have hloc : ∀ v : Val, (match v with | .node k => !t.consts.contains k | _ => true) = true → t.prog.Local v := by
    intro v hv k e
    subst e
    simpa [Tab.prog] using hv
  refine ⟨fun n => ?_, fun n hn => (wf.isCall n).1 hn, fun f k hk => ?_, fun n hn => ?_, fun k1 h k2 h' _ => ?_⟩
  · by_cases hn : n < t.rows.length
    · have := List.all_eq_true.1 h1 n (List.mem_range.2 hn)
      show match t.inst n with
        | .alloca => n ∈ A
        | .gep v | .extract v | .cast v => n ∈ A ∧ t.prog.Local v
        | .call as => n ∈ A ∧ ∀ a ∈ as, t.prog.Local a
        | .ret v => ∀ a ∈ v, t.prog.Local a
        | _ => True
      cases hi : t.inst n <;> rw [hi] at this <;> dsimp only at this ⊢
      · simpa using this
      · rw [Bool.and_eq_true] at this; exact ⟨by simpa using this.1, hloc _ this.2⟩
      · rw [Bool.and_eq_true] at this; exact ⟨by simpa using this.1, hloc _ this.2⟩
      · rw [Bool.and_eq_true] at this; exact ⟨by simpa using this.1, hloc _ this.2⟩
      · rw [Bool.and_eq_true] at this
        exact ⟨by simpa using this.1, fun a ha => hloc _ (List.all_eq_true.1 this.2 a ha)⟩
      · intro a ha
        rw [ha] at this
        exact hloc _ this
    · show match t.inst n with
        | .alloca => n ∈ A
        | .gep v | .extract v | .cast v => n ∈ A ∧ t.prog.Local v
        | .call as => n ∈ A ∧ ∀ a ∈ as, t.prog.Local a
        | .ret v => ∀ a ∈ v, t.prog.Local a
        | _ => True
      rw [t.inst_ge h0 hn]; trivial
  · obtain ⟨e, he, rfl, e2⟩ := t.mem_paramsOf hk
    simpa using List.all_eq_true.1 (List.all_eq_true.1 h2 e he) k (e2 ▸ hk)
  · exact List.isEmpty_iff.1 (List.all_eq_true.1 h3 n hn)
  · exact of_decide_eq_true (List.all_eq_true.1 (List.all_eq_true.1 h4 k1 h) k2 h')

/-- The conditions of `NoCopies` by computation. -/
def Tab.okApart (t : Tab) : Bool :=
  t.insts.length == t.rows.length &&
  (List.range t.rows.length).all (fun n => (match t.inst n with
    | .gep _ | .extract _ | .cast _ => false
    | _ => true) && (t.prog.icf.callees n).all fun f => t.prog.extB n f) &&
  t.entries.all (fun n => (t.paramsOf (tabRow t.rows n).fn).isEmpty)

theorem C51.okApart {t : Tab} (h : t.okApart = true) : t.prog.NoCopies := by
  unfold Tab.okApart at h
  simp only [Bool.and_eq_true, beq_iff_eq] at h
  obtain ⟨⟨h0, h1⟩, h3⟩ := h
  refine ⟨fun n => ?_, fun n f hf => ?_, fun n hn => ?_⟩
  · show match t.inst n with
      | .gep _ | .extract _ | .cast _ => False
      | _ => True
    by_cases hn : n < t.rows.length
    · have := (Bool.and_eq_true _ _ ▸ List.all_eq_true.1 h1 n (List.mem_range.2 hn) :).1
      cases hi : t.inst n <;> rw [hi] at this <;> first | trivial | cases this
    · rw [t.inst_ge h0 hn]; trivial
  · have hn : n < t.rows.length := Classical.byContradiction fun h => by
      rw [(t.row_ge h).2.2.2.2] at hf; cases hf
    have := (Bool.and_eq_true _ _ ▸ List.all_eq_true.1 h1 n (List.mem_range.2 hn) :).2
    exact (extB_iff _).1 (List.all_eq_true.1 this f hf)
  · exact List.isEmpty_iff.1 (List.all_eq_true.1 h3 n hn)

/-- The conditions of `Bounded` by computation. -/
def Tab.okBounded (t : Tab) (K : List Val) : Bool :=
  let S := List.range t.rows.length
  t.entries.all (fun n => S.contains n && (t.paramsOf (tabRow t.rows n).fn).all fun k => decide (.node k ∈ K)) &&
  S.all (fun n => (t.prog.icf.succs n ++ t.prog.icf.retSites n).all S.contains &&
    (t.prog.icf.callees n).all (fun f => (t.prog.icf.starts f).all S.contains && (t.paramsOf f).all (fun k => decide (.node k ∈ K)) &&
      (!t.prog.extB n f || (t.prog.icf.starts f).isEmpty)) &&
    decide (.node n ∈ K) && (t.prog.operands n).all (fun v => decide (v ∈ K)) &&
    K.all fun v => (t.prog.aliases v).all fun a => (t.prog.aliasFacts n a).all fun x => decide (x ∈ K)) &&
  decide (.zero ∈ K)

theorem C51.okBounded {t : Tab} {K : List Val} (h : t.okBounded K = true) : t.prog.Bounded (List.range t.rows.length) K := by
  unfold Tab.okBounded at h
  simp only [Bool.and_eq_true] at h
  obtain ⟨⟨h1, h2⟩, h3⟩ := h
  have row := fun n (hn : n ∈ List.range t.rows.length) => List.all_eq_true.1 h2 n hn
  simp only [Bool.and_eq_true] at row
  have cont : ∀ {n : Nat}, (List.range t.rows.length).contains n = true → n ∈ List.range t.rows.length := by
    intro n hn; simpa using hn
  have callee := fun n (hn : n ∈ List.range t.rows.length) f (hf : f ∈ t.prog.icf.callees n) =>
    List.all_eq_true.1 (row n hn).1.1.1.2 f hf
  simp only [Bool.and_eq_true] at callee
  refine ⟨fun n hn => ?_, fun n hn n' h' => ?_, fun n hn f hf sp hsp => ?_, fun n hn r hr => ?_, of_decide_eq_true h3,
    fun n hn => ?_, fun n hn v hv => ?_, fun n hn f hf k hk => ?_, fun n hn k hk => ?_, (fun g hg => by cases hg),
    fun v hv n hn a ha x hx => ?_, fun n f hf hx => ?_⟩
  · exact cont (Bool.and_eq_true _ _ ▸ List.all_eq_true.1 h1 n hn :).1
  · exact cont (List.all_eq_true.1 (row n hn).1.1.1.1 n' (List.mem_append_left _ h'))
  · exact cont (List.all_eq_true.1 (callee n hn f hf).1.1 sp hsp)
  · exact cont (List.all_eq_true.1 (row n hn).1.1.1.1 r (List.mem_append_right _ hr))
  · exact of_decide_eq_true (row n hn).1.1.2
  · exact of_decide_eq_true (List.all_eq_true.1 (row n hn).1.2 v hv)
  · exact of_decide_eq_true (List.all_eq_true.1 (callee n hn f hf).1.2 k hk)
  · exact of_decide_eq_true (List.all_eq_true.1 (Bool.and_eq_true _ _ ▸ List.all_eq_true.1 h1 n hn :).2 k hk)
  · exact of_decide_eq_true (List.all_eq_true.1 (List.all_eq_true.1 (List.all_eq_true.1 (row n hn).2 v hv) a ha) x hx)
  · have hn : n ∈ List.range t.rows.length := List.mem_range.2 (Classical.byContradiction fun h => by
      rw [(t.row_ge h).2.2.2.2] at hf; cases hf)
    have := (callee n hn f hf).2
    rw [(extB_iff _).2 hx, Bool.not_true, Bool.false_or] at this
    exact List.isEmpty_iff.1 this

theorem C51.ex_alias : C51.ex.prog.AliasSound false :=
  C51.alias_class C51.ex_calls (C51.okClass C51.ex_wf (A := [0, 1, 2, 4, 6, 40, 41]) (by decide +kernel))

theorem C51.ex_moves : C51.ex.prog.MovesUnaliased false := by
  intro t _ f _ i j b ℓ hm
  rcases hm with ⟨h, _⟩ | ⟨_, m, h, _⟩ <;> cases h

theorem C51.ex_bounded : C51.ex.prog.Bounded (List.range 12) (.zero :: [0, 1, 2, 3, 4, 5, 6, 7, 8, 9, 10, 11, 30, 40, 41].map .node) :=
  C51.okBounded (t := C51.ex) (by decide +kernel)

/-- All hypotheses of `C51_total_partial` hold of the example. -/
example : ∃ fuel st w, solve C51.ex.prog.problem fuel = some (st, w) ∧
    ∀ t v, C51.ex.prog.Reached false t → C51.ex.prog.Leak t v → C51.ex.prog.Reported w t.n v :=
  C51_total_partial C51.ex_wf C51.ex_calls C51.ex_fit C51.ex_alias C51.ex_moves (tabICFG_unique _) C51.ex_bounded

/-- The example has an execution, through `f` and back, that leaks `g`, and the solver reports that leak. -/
example : (∃ s, C51.ex.prog.Reached false s ∧ s.n = 6 ∧ C51.ex.prog.Leak s (.node 5)) ∧
    ∃ st w, solve C51.ex.prog.problem 300 = some (st, w) ∧ C51.ex.prog.Reported w 6 (.node 5) :=
  ⟨Tab.leaks_sound (cs := List.replicate 10 (0, 0)) (by decide) (by decide +kernel), Tab.finds_sound (by decide +kernel)⟩

/-- `int main() { char x, y; x = source(); z = y; strcpy(&y, &x); clean(&x); sink(y); sink(x); }` with a summary for `strcpy` and a
sanitizer. -/
def C51.lib : Tab where
  rows := [{ fn := 0, succs := [1] }, { fn := 0, succs := [2] }, { fn := 0, call := some ([1], [3]) }, { fn := 0, succs := [4] },
    { fn := 0, call := some ([2], [5]) }, { fn := 0, call := some ([3], [6]) }, { fn := 0, succs := [7] },
    { fn := 0, call := some ([4], [8]) }, { fn := 0, succs := [9] }, { fn := 0, call := some ([4], [10]) }, { fn := 0, exit := true }]
  insts := [.alloca, .alloca, .call [], .store (.node 2) (.node 0), .call [.node 1, .node 0], .call [.node 0], .load (.node 1),
    .call [.node 6], .load (.node 0), .call [.node 8], .ret none]
  ptrs := [0, 1, 4, 41, 42, 43]
  params := [(2, [41, 42]), (3, [43]), (4, [44])]
  decls := [1, 2, 3, 4]
  sources := [2]
  sinks := [44]
  sanis := [43]
  fdff := [(2, [(1, [.param 0, .ret])])]

theorem C51.lib_wf : C51.lib.prog.WF := C51.lib.wf (by decide +kernel)
theorem C51.lib_calls : C51.lib.prog.WFCalls := C51.lib.wfCalls (by decide +kernel)
theorem C51.lib_fit : C51.lib.prog.Fit := C51.lib.fit (by decide +kernel)
theorem C51.lib_apart : C51.lib.prog.NoCopies := C51.okApart (by decide +kernel)

/-- All hypotheses of `C51_complete_partial` hold of this example, in which a library function moves data. -/
example {st : St Nat Val (EF Empty BinaryDomain)} {w : VS Nat Val BinaryDomain} (h : Solved C51.lib.prog.problem st w) {t : CState}
    (ht : C51.lib.prog.Reached false t) {v : Val} (hl : C51.lib.prog.Leak t v) : C51.lib.prog.Reported w t.n v :=
  C51_complete_partial C51.lib_wf C51.lib_calls C51.lib_fit (C51.alias_apart C51.lib_apart) (C51.moves_apart C51.lib_apart) h ht hl

/-- `y` leaks, and the solver reports that. -/
example : (∃ s, C51.lib.prog.Reached false s ∧ s.n = 7 ∧ C51.lib.prog.Leak s (.node 6)) ∧
    ∃ st w, solve C51.lib.prog.problem 300 = some (st, w) ∧ C51.lib.prog.Reported w 7 (.node 6) :=
  ⟨Tab.leaks_sound (cs := List.replicate 7 (0, 0)) (by decide) (by decide +kernel), Tab.finds_sound (by decide +kernel)⟩

/-- The example without its source: nothing is reported. -/
example {st : St Nat Val (EF Empty BinaryDomain)} {w : VS Nat Val BinaryDomain}
    (h : Solved (Tab.prog { C51.lib with sources := [] }).problem st w) (n : Nat) (v : Val) :
    ¬ (Tab.prog { C51.lib with sources := [] }).Reported w n v := by
  have hsrc : ∀ n f v, ¬ (Tab.prog { C51.lib with sources := [] }).GenAt n f v := by
    rintro n f v (⟨g, hg, _⟩ | ⟨h, _⟩ | ⟨i, k, _, h, _⟩)
    · cases hg
    · cases h
    · cases h
  refine C51_no_source (Tab.wf _ (by decide +kernel)) (tabICFG_unique _)
    (C51.disjoint (Tab.fit _ (by decide +kernel)) (C51.okBounded (K := .zero :: (List.range 45).map .node) (by decide +kernel)).noBody)
    ?_ hsrc (fun g n hg => by cases hg) rfl h n v
  intro a ha
  have : (Tab.prog { C51.lib with sources := [] }).aliases .zero = [.zero] := by decide +kernel
  rw [this] at ha
  exact List.mem_singleton.1 ha

/-- The example whose functions have bodies: the call of the sink is not entered, the call of the other function is. -/
example : (∀ s, (Tab.prog { C51.lib with decls := [] }).callFlow 7 4 s = []) ∧
    ¬ ∀ s, (Tab.prog { C51.lib with decls := [] }).callFlow 4 2 s = [] :=
  ⟨(C51_not_entered 7 4).2 (.inr (.inl (by decide))), fun h => absurd (h .zero) (by decide)⟩

/-! ## Leaks the analysis does not report, and reports of no leak

Each program below is well-formed; each violates one of the conditions of `C51_complete_partial`, and with it the solver ends
without reporting a leak that an execution has. -/

/-- `s = source(); t = s + 1; sink(t)`: instructions such as arithmetic, phi and select drop the taint. -/
def C51.arith : Tab where
  rows := [{ fn := 0, call := some ([1], [1]) }, { fn := 0, succs := [2] }, { fn := 0, call := some ([2], [3]) }, { fn := 0, exit := true }]
  insts := [.call [], .op [.node 0, .lit 1], .call [.node 1], .ret none]
  params := [(2, [41])]
  decls := [1, 2]
  sources := [0]
  sinks := [41]

/-- C51 is false if the results of all instructions carry the taint of their operands. -/
theorem C51_arith_false : C51.arith.prog.WF ∧ C51.arith.prog.WFCalls ∧ C51.arith.prog.Fit ∧
    (∃ s, C51.arith.prog.Reached true s ∧ s.n = 2 ∧ C51.arith.prog.Leak s (.node 1)) ∧
    ∃ st w, solve C51.arith.prog.problem 200 = some (st, w) ∧ ¬ ifdsResultsAt w 2 (.node 1) ∧ ¬ C51.arith.prog.Reported w 2 (.node 1) :=
  ⟨C51.arith.wf (by decide +kernel), C51.arith.wfCalls (by decide +kernel), C51.arith.fit (by decide +kernel),
    Tab.leaks_sound (cs := List.replicate 2 (0, 0)) (by decide) (by decide +kernel), Tab.misses_sound (by decide +kernel)⟩

/-- `void f(int *a) { *a; } int main() { int x = source(); f(&x); sink(x); }`: the only use of `a` kills the fact for `a`, so nothing
is mapped back to `x`, and the call-to-return flow has killed the fact for `x`. -/
def C51.oneUse : Tab where
  rows := [{ fn := 0, succs := [1] }, { fn := 0, call := some ([1], [2]) }, { fn := 0, succs := [3] }, { fn := 0, call := some ([2], [4]) },
    { fn := 0, succs := [5] }, { fn := 0, call := some ([3], [6]) }, { fn := 0, exit := true }, { fn := 2, succs := [8] }, { fn := 2, exit := true }]
  insts := [.alloca, .call [], .store (.node 1) (.node 0), .call [.node 0], .load (.node 0), .call [.node 4], .ret none,
    .load (.node 40), .ret none]
  ptrs := [0, 40]
  params := [(2, [40]), (3, [41])]
  decls := [1, 3]
  aliases := [[0, 1, 3, 5, 40, 41]]
  sources := [1]
  sinks := [41]

/-- C51 is false without `Fit.lastUse`: a pointer argument loses its taint when the parameter has one use. -/
theorem C51_one_use_false : C51.oneUse.prog.WF ∧ C51.oneUse.prog.WFCalls ∧ C51.oneUse.prog.AliasSound false ∧
    C51.oneUse.prog.MovesUnaliased false ∧
    (∃ s, C51.oneUse.prog.Reached false s ∧ s.n = 5 ∧ C51.oneUse.prog.Leak s (.node 4)) ∧
    ∃ st w, solve C51.oneUse.prog.problem 300 = some (st, w) ∧ ¬ ifdsResultsAt w 5 (.node 4) ∧
      ¬ C51.oneUse.prog.Reported w 5 (.node 4) := by
  have wf : C51.oneUse.prog.WF := C51.oneUse.wf (by decide +kernel)
  have wc : C51.oneUse.prog.WFCalls := C51.oneUse.wfCalls (by decide +kernel)
  refine ⟨wf, wc, C51.alias_class wc (C51.okClass wf (A := [0, 1, 3, 5, 40, 41]) (by decide +kernel)), ?_,
    Tab.leaks_sound (cs := List.replicate 7 (0, 0)) (by decide) (by decide +kernel), Tab.misses_sound (by decide +kernel)⟩
  intro t _ f _ i j b ℓ hm
  rcases hm with ⟨h, _⟩ | ⟨_, m, h, _⟩ <;> cases h

/-- `S f() { S s = source(); return s; } int main() { S s = f(); sink(s); }` where the structure is returned through a pointer: the
call gets a summary because of the struct-return attribute, so the body of `f` is never analysed. -/
def C51.sretEx : Tab where
  rows := [{ fn := 0, succs := [1] }, { fn := 0, call := some ([2], [2]) }, { fn := 0, succs := [3] }, { fn := 0, call := some ([3], [4]) },
    { fn := 0, exit := true }, { fn := 2, call := some ([1], [6]) }, { fn := 2, succs := [7] }, { fn := 2, succs := [8] }, { fn := 2, exit := true }]
  insts := [.alloca, .call [.node 0], .load (.node 0), .call [.node 2], .ret none,
    .call [], .store (.lit 0) (.node 40), .store (.node 5) (.node 40), .ret none]
  ptrs := [0, 40]
  params := [(2, [40]), (3, [41])]
  decls := [1, 3]
  aliases := [[0, 1, 3, 5, 40, 41]]
  sources := [5]
  sinks := [41]
  sret := [2]
  sretCS := [1]

/-- C51 is false without `Fit.sret`; with the attribute removed the leak is reported. -/
theorem C51_sret_false : C51.sretEx.prog.WF ∧ C51.sretEx.prog.WFCalls ∧ C51.sretEx.prog.AliasSound false ∧
    (∃ s, C51.sretEx.prog.Reached false s ∧ s.n = 3 ∧ C51.sretEx.prog.Leak s (.node 2)) ∧
    (∃ st w, solve C51.sretEx.prog.problem 300 = some (st, w) ∧ ¬ ifdsResultsAt w 3 (.node 2) ∧
      ¬ C51.sretEx.prog.Reported w 3 (.node 2)) ∧
    ∃ st w, solve (Tab.prog { C51.sretEx with sret := [], sretCS := [] }).problem 300 = some (st, w) ∧
      (Tab.prog { C51.sretEx with sret := [], sretCS := [] }).Reported w 3 (.node 2) := by
  have wf : C51.sretEx.prog.WF := C51.sretEx.wf (by decide +kernel)
  have wc : C51.sretEx.prog.WFCalls := C51.sretEx.wfCalls (by decide +kernel)
  exact ⟨wf, wc, C51.alias_class wc (C51.okClass wf (A := [0, 1, 3, 5, 40, 41]) (by decide +kernel)),
    Tab.leaks_sound (cs := List.replicate 7 (0, 0)) (by decide) (by decide +kernel), Tab.misses_sound (by decide +kernel),
    Tab.finds_sound (by decide +kernel)⟩

/-- `char x, y, *z = &y; x = source(); strcpy(z, &x); sink(y)`: the library summary taints `z` but not its aliases. -/
def C51.libAlias : Tab where
  rows := [{ fn := 0, succs := [1] }, { fn := 0, succs := [2] }, { fn := 0, succs := [3] }, { fn := 0, call := some ([1], [4]) },
    { fn := 0, succs := [5] }, { fn := 0, call := some ([2], [6]) }, { fn := 0, succs := [7] },
    { fn := 0, call := some ([3], [8]) }, { fn := 0, exit := true }]
  insts := [.alloca, .alloca, .gep (.node 1), .call [], .store (.node 3) (.node 0), .call [.node 2, .node 0], .load (.node 1),
    .call [.node 6], .ret none]
  ptrs := [0, 1, 2, 5, 41, 42]
  params := [(2, [41, 42]), (3, [43])]
  decls := [1, 2, 3]
  aliases := [[1, 2]]
  sources := [3]
  sinks := [43]
  fdff := [(2, [(1, [.param 0, .ret])])]

/-- C51 is false without `MovesUnaliased`. -/
theorem C51_library_alias_false : C51.libAlias.prog.WF ∧ C51.libAlias.prog.WFCalls ∧ C51.libAlias.prog.Fit ∧
    (∃ s, C51.libAlias.prog.Reached false s ∧ s.n = 7 ∧ C51.libAlias.prog.Leak s (.node 6)) ∧
    ∃ st w, solve C51.libAlias.prog.problem 300 = some (st, w) ∧ ¬ ifdsResultsAt w 7 (.node 6) ∧
      ¬ C51.libAlias.prog.Reported w 7 (.node 6) :=
  ⟨C51.libAlias.wf (by decide +kernel), C51.libAlias.wfCalls (by decide +kernel), C51.libAlias.fit (by decide +kernel),
    Tab.leaks_sound (cs := List.replicate 7 (0, 0)) (by decide) (by decide +kernel), Tab.misses_sound (by decide +kernel)⟩

/-- `C51.lib` where the source parameter of `strcpy` is a sink as well: the function then gets the summary of a sink and no longer the
library summary. -/
def C51.shadow : Tab := { C51.lib with sinks := [44, 42] }

/-- C51 is false without `Fit.library`: making a library function a sink hides what it copies. -/
theorem C51_shadowed_library_false : C51.shadow.prog.WF ∧ C51.shadow.prog.WFCalls ∧ C51.shadow.prog.AliasSound false ∧
    C51.shadow.prog.MovesUnaliased false ∧
    (∃ s, C51.shadow.prog.Reached false s ∧ s.n = 7 ∧ C51.shadow.prog.Leak s (.node 6)) ∧
    ∃ st w, solve C51.shadow.prog.problem 300 = some (st, w) ∧ ¬ ifdsResultsAt w 7 (.node 6) ∧
      ¬ C51.shadow.prog.Reported w 7 (.node 6) := by
  have ha : C51.shadow.prog.NoCopies := C51.okApart (by decide +kernel)
  exact ⟨C51.shadow.wf (by decide +kernel), C51.shadow.wfCalls (by decide +kernel), C51.alias_apart ha, C51.moves_apart ha,
    Tab.leaks_sound (cs := List.replicate 7 (0, 0)) (by decide) (by decide +kernel), Tab.misses_sound (by decide +kernel)⟩

/-- C51, the other direction fails as well: in `C51.lib` the call 5 sanitizes `x`, so that no execution can have `x` tainted after it,
but as the sanitizer is a declaration the call-to-return flow keeps the fact, and the use of `x` in the sink at 9 is reported. -/
theorem C51_sanitizer_false : C51.lib.prog.SaniAt 5 3 (.node 0) ∧
    (∀ regs mem next regs' mem', (∃ i, regs 0 = .ptr (.obj i) ∧ i < next) → C51.lib.prog.ExtEffect 5 3 regs mem next regs' mem' →
      ¬ C51.lib.prog.Tainted regs' mem' (.node 0)) ∧
    ∃ st w, solve C51.lib.prog.problem 300 = some (st, w) ∧ C51.lib.prog.Reported w 9 (.node 8) := by
  have hs : C51.lib.prog.SaniAt 5 3 (.node 0) := ⟨0, 43, by decide +kernel, by decide +kernel, by decide +kernel⟩
  refine ⟨hs, ?_, Tab.finds_sound (by decide +kernel)⟩
  rintro regs mem next regs' mem' ⟨i, hi, hlt⟩ he ht
  have hl : C51.lib.prog.isConst 0 = false := by decide +kernel
  unfold Prog.Tainted at ht
  rw [val_local hl, (he.addr 0 _ (by decide)).2 hi] at ht
  rcases he.cell _ ht (by simp; omega) with ⟨_, h⟩ | ⟨v, hg, _⟩ | ⟨i', j, a, b, hm, _⟩
  · exact h _ hs (by rw [val_local hl, hi])
  · have : C51.lib.prog.collectGen 5 3 = [] := by decide +kernel
    rw [← mem_collectGen, this] at hg; cases hg
  · rcases hm with ⟨h, _⟩ | ⟨_, m, h, _⟩ <;> cases h

/-- `int x, *p = &x; x = source(); sink(*p)` in one basic block, without optimisation (`pp` holds `p`): at the store the alias
`load pp` is skipped because it comes later in the block, so neither it nor `pp` becomes a fact, and the load finds `pp` clean. (The
executions of `TaintSem.lean` do not store addresses; this theorem is about the result of the solver alone.) -/
def C51.later : Tab where
  rows := [{ fn := 0, succs := [1] }, { fn := 0, succs := [2] }, { fn := 0, succs := [3] }, { fn := 0, call := some ([1], [4]) },
    { fn := 0, succs := [5] }, { fn := 0, succs := [6] }, { fn := 0, succs := [7] }, { fn := 0, call := some ([2], [8]) }, { fn := 0, exit := true }]
  insts := [.alloca, .alloca, .store (.node 0) (.node 1), .call [], .store (.node 3) (.node 0), .load (.node 1), .load (.node 5),
    .call [.node 6], .ret none]
  ptrs := [0, 1, 5]
  params := [(2, [41])]
  decls := [1, 2]
  aliases := [[0, 5]]
  sources := [3]
  sinks := [41]

/-- The leak is missed; with the load in a block of its own it is found. -/
theorem C51_later_alias_false : C51.later.prog.WF ∧ C51.later.prog.WFCalls ∧ C51.later.prog.Fit ∧
    (∃ st w, solve C51.later.prog.problem 300 = some (st, w) ∧ ¬ ifdsResultsAt w 7 (.node 6) ∧ ¬ C51.later.prog.Reported w 7 (.node 6)) ∧
    ∃ st w, solve (Tab.prog { C51.later with blocks := [0, 0, 0, 0, 0, 1, 1, 1, 1] }).problem 300 = some (st, w) ∧
      (Tab.prog { C51.later with blocks := [0, 0, 0, 0, 0, 1, 1, 1, 1] }).Reported w 7 (.node 6) :=
  ⟨C51.later.wf (by decide +kernel), C51.later.wfCalls (by decide +kernel), C51.later.fit (by decide +kernel),
    Tab.misses_sound (by decide +kernel), Tab.finds_sound (by decide +kernel)⟩

end Phasar.Taint
