import Verif.CFG.ICFGBackLemmas
import Verif.CFG.ICFGProps
/-!
# Property C91, the backward graph

`LLVMBasedBackwardICFG` takes `allNonCallStartNodes` from the forward graph, and its `isStartPoint` and `getStartPointsOf` disagree.
-/
namespace Phasar.CFG
open Phasar JoinLat

/-- The statements of the backward graph that are no debug instructions (not code). -/
def bvisInstr (m : Prog) : List BGNode := (visInstr m).map inB ++ m.funs.map fun g => (g, none)

theorem C91.mem_bvis {m : Prog} {a : BGNode} : a ∈ bvisInstr m ↔ (∃ n, a = (a.1, some n) ∧ (a.1, n) ∈ visInstr m) ∨
    (a.2 = none ∧ a.1 ∈ m.funs) := by
  unfold bvisInstr
  rw [List.mem_append, List.mem_map, List.mem_map]
  constructor
  · rintro (⟨b, hb, rfl⟩ | ⟨g, hg, rfl⟩)
    · exact Or.inl ⟨b.2, rfl, hb⟩
    · exact Or.inr ⟨rfl, hg⟩
  · rintro (⟨n, h1, h2⟩ | ⟨h1, h2⟩)
    · exact Or.inl ⟨(a.1, n), h2, h1.symm⟩
    · exact Or.inr ⟨a.1, h2, Prod.ext rfl h1.symm⟩

theorem C91.inB_inj {a b : GNode} (h : inB a = inB b) : a = b := by
  unfold inB at h
  obtain ⟨h1, h2⟩ := Prod.mk.inj h
  exact Prod.ext h1 (Option.some.inj h2)

/-- C91: in the backward graph, too, successors and return sites stay in the function, and start points belong to it. -/
theorem C91_backward_wf (m : Prog) (K : List BGNode) : (bicfg m K).WF where
  succs_fun := by
    intro n n' h
    obtain ⟨k, _, hk⟩ := List.mem_map.1 (mem_lift.1 h)
    show n'.1.1 = n.1.1
    rw [← hk]
  ret_fun := by
    intro n n' h
    obtain ⟨k, _, hk⟩ := List.mem_map.1 (mem_lift.1 h)
    show n'.1.1 = n.1.1
    rw [← hk]
  start_fun := by
    intro f n h
    obtain ⟨k, _, hk⟩ := List.mem_map.1 (mem_lift.1 h)
    show n.1.1 = f
    rw [← hk]

theorem C91.mem_exitPoints {f : Fn} {n : Node} : n ∈ exitPoints f ↔
    ∃ B, f[n.1]? = some B ∧ n.2 = B.ins.length ∧ (B.term = .ret ∨ B.term = .resume) := by
  unfold exitPoints termOf
  rw [List.mem_map]
  constructor
  · rintro ⟨⟨B, i⟩, h, rfl⟩
    obtain ⟨h1, h2⟩ := List.mem_filter.1 h
    exact ⟨B, List.mem_zipIdx_iff_getElem?.1 h1, rfl, of_decide_eq_true h2⟩
  · rintro ⟨B, h1, h2, h3⟩
    exact ⟨(B, n.1), List.mem_filter.2 ⟨List.mem_zipIdx_iff_getElem?.2 h1, decide_eq_true h3⟩, Prod.ext rfl h2.symm⟩

theorem C91.mem_bstarts {m : Prog} {K : List BGNode} {n : {a : BGNode // a ∈ K}} {g : Nat} : n ∈ (bicfg m K).starts g ↔
    ∃ k B, n.1 = (g, some k) ∧ (m.fns g)[k.1]? = some B ∧ k.2 = B.ins.length ∧ (B.term = .ret ∨ B.term = .resume) := by
  refine mem_lift.trans ?_
  unfold bstartPoints
  simp only [List.mem_map]
  constructor
  · rintro ⟨_, ⟨k, hk, rfl⟩, h⟩
    obtain ⟨B, h1, h2, h3⟩ := C91.mem_exitPoints.1 hk
    exact ⟨k, B, h.symm, h1, h2, h3⟩
  · rintro ⟨k, B, h, h1, h2, h3⟩
    exact ⟨some k, ⟨k, C91.mem_exitPoints.2 ⟨B, h1, h2, h3⟩, rfl⟩, h.symm⟩

/-- C91: what the queries of the backward graph answer.  An instruction leads to those control may come from, and to the
function's `BackwardRet` exactly if there is none; return sites are these successors; start points are the `ret` and
`resume` instructions; accepted as start points are the `ret` instructions and every `BackwardRet`; exits are the
`BackwardRet`s; the calls in a function are its calls; and `allNonCallStartNodes` are the instructions that are no calls and no
start points of the *forward* graph. -/
theorem C91_backward_queries (m : Prog) (hm : m.WF) (n n' : {a : BGNode // a ∈ bvisInstr m}) (g : Nat) :
    (n' ∈ (bicfg m (bvisInstr m)).succs n ↔ n'.1.1 = n.1.1 ∧ ∃ k, n.1.2 = some k ∧
      ((∃ k', n'.1.2 = some k' ∧ Step true (m.fns n.1.1) k' k) ∨ (n'.1.2 = none ∧ preds true (m.fns n.1.1) k = []))) ∧
    (bicfg m (bvisInstr m)).retSites n = (bicfg m (bvisInstr m)).succs n ∧
    (n ∈ (bicfg m (bvisInstr m)).starts g ↔ ∃ k B, n.1 = (g, some k) ∧ (m.fns g)[k.1]? = some B ∧ k.2 = B.ins.length ∧
      (B.term = .ret ∨ B.term = .resume)) ∧
    ((bicfg m (bvisInstr m)).isStart n = true ↔ n.1.2 = none ∨ ∃ k B, n.1.2 = some k ∧ (m.fns n.1.1)[k.1]? = some B ∧
      k.2 = B.ins.length ∧ B.term = .ret) ∧
    ((bicfg m (bvisInstr m)).isExit n = true ↔ n.1.2 = none) ∧
    (n ∈ (bicfg m (bvisInstr m)).callsIn g ↔ ∃ k, n.1 = (g, some k) ∧ m.isCall (g, k) = true) ∧
    (n ∈ (bicfg m (bvisInstr m)).nonCallStart ↔ ∃ k, n.1.2 = some k ∧ m.isCall (n.1.1, k) = false ∧
      ¬ (k.1 = 0 ∧ ∃ B, (m.fns n.1.1)[0]? = some B ∧ First true B k.2)) ∧
    ((bicfg m (bvisInstr m)).isCall n = true ↔ ∃ k, n.1.2 = some k ∧ m.isCall (n.1.1, k) = true) ∧
    (bicfg m (bvisInstr m)).funOf n = n.1.1 ∧
    (∀ h, h ∈ (bicfg m (bvisInstr m)).callees n ↔ ∃ k, n.1.2 = some k ∧ h ∈ m.callees (n.1.1, k)) ∧
    (n ∈ (bicfg m (bvisInstr m)).callers g ↔ ∃ a ∈ m.callers g, n.1 = (a.1, some a.2)) := by
  have hvis : ∀ (x : {a : BGNode // a ∈ bvisInstr m}) k, x.1.2 = some k → (x.1.1, k) ∈ visInstr m := by
    intro x k h
    rcases C91.mem_bvis.1 x.2 with ⟨j, h1, h2⟩ | ⟨h1, _⟩
    · have : x.1.2 = some j := by rw [h1]
      rw [h] at this
      cases this
      exact h2
    · rw [h1] at h; cases h
  refine ⟨?_, rfl, C91.mem_bstarts, ?_, ?_, ?_, ?_, ?_, rfl, ?_, ?_⟩
  · refine mem_lift.trans ?_
    unfold bgsuccs
    rw [List.mem_map]
    constructor
    · rintro ⟨k', hk, e⟩
      have e1 : n'.1.1 = n.1.1 := by rw [← e]
      have e2 : n'.1.2 = k' := by rw [← e]
      refine ⟨e1, ?_⟩
      cases hn : n.1.2 with
      | none => rw [hn] at hk; simp [bsuccs] at hk
      | some k =>
        refine ⟨k, rfl, ?_⟩
        rw [hn] at hk
        simp only [bsuccs] at hk
        split at hk
        · rename_i h
          rw [List.mem_singleton.1 hk] at e2
          simp only [Bool.and_true, List.isEmpty_iff, List.map_eq_nil_iff] at h
          exact Or.inr ⟨e2, h⟩
        · obtain ⟨j, hj, rfl⟩ := List.mem_map.1 hk
          refine Or.inl ⟨j, e2, ?_⟩
          have v1 := (mem_visInstr.1 (hvis n k hn)).2
          have v2 := (mem_visInstr.1 (hvis n' j e2)).2
          rw [e1] at v2
          exact (C42_preds true _ j k v2 v1).1 hj
    · rintro ⟨e1, k, hn, h⟩
      rw [hn]
      simp only [bsuccs]
      rcases h with ⟨j, e2, h⟩ | ⟨e2, h⟩
      · have v1 := (mem_visInstr.1 (hvis n k hn)).2
        have v2 := (mem_visInstr.1 (hvis n' j e2)).2
        rw [e1] at v2
        have hj := (C42_preds true _ j k v2 v1).2 h
        refine ⟨some j, ?_, Prod.ext e1.symm e2.symm⟩
        rw [if_neg]
        · exact List.mem_map.2 ⟨j, hj, rfl⟩
        · intro hc
          simp only [Bool.and_true, List.isEmpty_iff, List.map_eq_nil_iff] at hc
          rw [hc] at hj
          cases hj
      · refine ⟨none, ?_, Prod.ext e1.symm e2.symm⟩
        rw [h]
        simp
  · show bisStartPoint _ _ = true ↔ _
    cases hn : n.1.2 with
    | none => simp [bisStartPoint]
    | some k =>
      simp only [bisStartPoint, reduceCtorEq, false_or, Option.some.injEq]
      unfold isExitInst
      constructor
      · intro h
        cases hB : (m.fns n.1.1)[k.1]? with
        | none => rw [hB] at h; cases h
        | some B =>
          rw [hB] at h
          have := of_decide_eq_true h
          exact ⟨k, B, rfl, hB, this⟩
      · rintro ⟨_, B, rfl, h1, h2⟩
        rw [h1]
        exact decide_eq_true h2
  · show bisExitInst true _ _ = true ↔ _
    cases hn : n.1.2 <;> simp [bisExitInst]
  · refine mem_lift.trans ?_
    unfold callsFromWithin
    rw [List.mem_map]
    constructor
    · rintro ⟨a, ha, e⟩
      obtain ⟨h1, h2⟩ := List.mem_filter.1 ha
      obtain ⟨k, _, rfl⟩ := List.mem_map.1 h1
      exact ⟨k, e.symm, h2⟩
    · rintro ⟨k, e, h⟩
      have hk := hvis n k (by rw [e])
      rw [e] at hk
      exact ⟨(g, k), List.mem_filter.2 ⟨List.mem_map.2 ⟨k, mem_instructions.2 (mem_visInstr.1 hk).2.1, rfl⟩, h⟩, e.symm⟩
  · refine mem_lift.trans ?_
    rw [List.mem_map]
    have key : ∀ k, n.1.2 = some k → ((n.1.1, k) ∈ nonCallStarts m ↔ m.isCall (n.1.1, k) = false ∧
        ¬ (k.1 = 0 ∧ ∃ B, (m.fns n.1.1)[0]? = some B ∧ First true B k.2)) := by
      intro k hk
      let x : {a : GNode // a ∈ visInstr m} := ⟨(n.1.1, k), hvis n k hk⟩
      have q := C91_queries_partial m hm x x n.1.1
      have q1 : (n.1.1, k) ∈ nonCallStarts m ↔ x ∈ (icfg m (visInstr m)).nonCallStart :=
        (mem_lift (x := x) (l := nonCallStarts m)).symm
      rw [q1, q.2.2.2.2.2.2.1, q.2.2.1]
      simp only [x, true_and]
    constructor
    · rintro ⟨a, ha, e⟩
      have e1 : n.1.2 = some a.2 := by rw [← e]; rfl
      have e2 : a = (n.1.1, a.2) := by rw [← e]; rfl
      rw [e2] at ha
      exact ⟨a.2, e1, (key a.2 e1).1 ha⟩
    · rintro ⟨k, hk, h⟩
      exact ⟨(n.1.1, k), (key k hk).2 h, Prod.ext rfl hk.symm⟩
  · show (instOf n.1).any m.isCall = true ↔ _
    unfold instOf
    cases hn : n.1.2 <;> simp
  · intro h
    show h ∈ ((instOf n.1).map m.callees).getD [] ↔ _
    unfold instOf
    cases hn : n.1.2 <;> simp
  · refine mem_lift.trans ?_
    rw [List.mem_map]
    exact ⟨fun ⟨a, h1, h2⟩ => ⟨a, h1, h2.symm⟩, fun ⟨a, h1, h2⟩ => ⟨a, h1, h2.symm⟩⟩

/-- C91: the backward start points are never reached from inside the function. -/
theorem C91_backward_start (m : Prog) (hm : m.WF) (g : Nat) (sp n : {a : BGNode // a ∈ bvisInstr m})
    (h : sp ∈ (bicfg m (bvisInstr m)).starts g) :
    sp ∉ (bicfg m (bvisInstr m)).succs n ∧ sp ∉ (bicfg m (bvisInstr m)).retSites n := by
  have key : sp ∉ (bicfg m (bvisInstr m)).succs n := by
    intro hs
    obtain ⟨k, B, h1, h2, h3, h4⟩ := C91.mem_bstarts.1 h
    obtain ⟨e1, j, hj, h5⟩ := (C91_backward_queries m hm n sp g).1.1 hs
    have ek : sp.1.2 = some k := by rw [h1]
    have eg : n.1.1 = g := by rw [← e1, h1]
    rcases h5 with ⟨k', h6, C, C', c1, c2, c3⟩ | ⟨h6, _⟩
    · rw [ek] at h6
      cases h6
      rw [eg, h2] at c1
      cases c1
      have hg : g ∈ m.funs := by
        rcases C91.mem_bvis.1 sp.2 with ⟨_, _, x⟩ | ⟨_, x⟩
        · have := (mem_visInstr.1 x).1
          rw [h1] at this; exact this
        · rw [h1] at x; exact x
      rcases c3 with ⟨_, c4⟩ | ⟨_, c4, _⟩
      · have a := c4.1
        have b := c4.2.1
        omega
      · rw [hm.exits g hg B (List.mem_of_getElem? h2) h4] at c4
        cases c4
    · rw [ek] at h6; cases h6
  exact ⟨key, key⟩

/-- C91 does not hold for the backward graph of any program with a function: its `BackwardRet` is accepted as start point, but is
none. -/
theorem C91_backward_wfv_false (m : Prog) (hf : m.funs ≠ []) : ¬ (bicfg m (bvisInstr m)).WFV := by
  obtain ⟨g, l, hl⟩ := List.exists_cons_of_ne_nil hf
  have hg : g ∈ m.funs := by rw [hl]; simp
  intro h
  have h1 := (h.isStart_iff ⟨(g, none), C91.mem_bvis.2 (Or.inr ⟨rfl, hg⟩)⟩).1 rfl
  obtain ⟨k, B, h2, _⟩ := C91.mem_bstarts.1 h1
  cases (Prod.mk.inj h2).2

/-- C91: consequence of taking `allNonCallStartNodes` from the forward graph: in no IDE problem on the backward graph a value is
reported at the first instruction of a function, unless it is a call, a `ret` or `resume`, a seed or an unbalanced return
site; and at a `BackwardRet` only if it is a seed or an unbalanced return site. -/
theorem C91_backward_none {D L E : Type} [DecidableEq D] [JoinLat L] [DecidableEq L] (m : Prog) (hm : m.WF)
    {P : IDE.Problem {a : BGNode // a ∈ bvisInstr m} D Nat L E} (hP : P.icf = bicfg m (bvisInstr m))
    {s : IDE.St {a : BGNode // a ∈ bvisInstr m} D E} {w : IDE.VS {a : BGNode // a ∈ bvisInstr m} D L} (h : IDE.Solved P s w)
    (n : {a : BGNode // a ∈ bvisInstr m}) (hs : ∀ facts, (n, facts) ∉ P.seeds) (hu : n ∉ s.unbal)
    (hn : n.1.2 = none ∨ ∃ k B, n.1.2 = some k ∧ k.1 = 0 ∧ (m.fns n.1.1)[0]? = some B ∧ First true B k.2 ∧
      m.isCall (n.1.1, k) = false ∧ ¬ (k.2 = B.ins.length ∧ (B.term = .ret ∨ B.term = .resume)))
    (d : D) : IDE.resultAt w n d = none := by
  have key : IDE.Within (fun x => x ≠ n) w := by
    refine IDE.solved_within ?_ ?_ ?_ ?_ h ?_
    · intro f c hc e
      subst e
      rw [hP] at hc
      obtain ⟨k, h1, h2⟩ := (C91_backward_queries m hm c c f).2.2.2.2.2.1.1 hc
      rcases hn with h3 | ⟨k', B, h3, _, _, _, h4, _⟩
      · rw [h1] at h3; cases h3
      · rw [h1] at h3 h4
        cases h3
        rw [h2] at h4; cases h4
    · intro f sp hc e
      subst e
      rw [hP] at hc
      obtain ⟨k, B, h1, h2, h3, h4⟩ := C91.mem_bstarts.1 hc
      rcases hn with h5 | ⟨k', C, h5, h6, h7, _, _, h8⟩
      · rw [h1] at h5; cases h5
      · rw [h1] at h5 h7
        cases h5
        simp only at h7
        rw [h6, h7] at h2
        cases h2
        exact h8 ⟨h3, h4⟩
    · intro x hc e
      subst e
      rw [hP] at hc
      obtain ⟨k, h1, h2, h3⟩ := (C91_backward_queries m hm x x 0).2.2.2.2.2.2.1.1 hc
      rcases hn with h5 | ⟨k', C, h5, h6, h7, h8, _⟩
      · rw [h1] at h5; cases h5
      · rw [h1] at h5
        cases h5
        exact h3 ⟨h6, C, h7, h8⟩
    · intro x facts hx e
      subst e
      exact hs facts hx
    · intro x hx e
      subst e
      exact hu hx
  cases hr : IDE.resultAt w n d with
  | none => rfl
  | some l => exact absurd rfl (key n d l hr)

/-! ### Instances -/

/-- One function: two instructions and `ret`. -/
def C91.back : Prog where
  funs := [0]
  fns := fun g => if g = 0 then [⟨[.plain, .plain], .ret, []⟩] else []
  isCall := fun _ => false
  callees := fun _ => []
  callers := fun _ => []

theorem C91.back_wf : C91.back.WF where
  fns := by
    intro g hg
    rw [List.mem_singleton.1 hg]
    exact ⟨by decide, by decide⟩
  entry := by decide
  dbg := by
    intro g hg n h
    rw [List.mem_singleton.1 hg] at h
    have : ∀ i : Nat, dbgAt ⟨[.plain, .plain], .ret, []⟩ i = false := by
      intro i
      match i with
      | 0 => rfl
      | 1 => rfl
      | i + 2 => exact dbgAt_term _ (by simp)
    unfold isDbg at h
    cases hB : (C91.back.fns 0)[n.1]? with
    | none => rw [hB] at h; cases h
    | some B =>
      rw [hB] at h
      have hB' : B = ⟨[.plain, .plain], .ret, []⟩ := by
        have : B ∈ C91.back.fns 0 := List.mem_of_getElem? hB
        exact List.mem_singleton.1 this
      have h' : dbgAt B n.2 = true := h
      rw [hB', this] at h'
      cases h'
  exits := by decide

/-- The zero fact, passed on everywhere, from the `ret`. -/
def C91.bprob : IDE.Problem {a : BGNode // a ∈ bvisInstr C91.back} Nat Nat BinaryDomain (EF Empty BinaryDomain) where
  icf := bicfg C91.back (bvisInstr C91.back)
  alg := IDE.ifdsAlg
  normalFlow := fun _ _ d => [d]
  callFlow := fun _ _ d => [d]
  retFlow := fun _ _ _ _ d => [d]
  ctrFlow := fun _ _ d => [d]
  summaryFlow := fun _ _ => none
  normalEdge := fun _ _ _ _ => .id
  callEdge := fun _ _ _ _ => .id
  retEdge := fun _ _ _ _ _ _ => .id
  ctrEdge := fun _ _ _ _ => .id
  sumEdge := fun _ _ _ _ => .id
  zero := 0
  seeds := [(⟨(0, some (0, 2)), by decide⟩, [(0, .BOTTOM)])]
  followReturnsPastSeeds := false

/-- So IFDS results are incomplete on the backward graph: here the fact reaches every statement of the function, the solver comes
to an end and reports it at the second instruction, but neither at the first one nor at the `BackwardRet`. -/
theorem C91_backward_false : ∃ s w, IDE.Solved C91.bprob s w ∧ (∀ n, IDE.FactReachable C91.bprob n 0) ∧
    IDE.ifdsResultsAt w ⟨(0, some (0, 1)), by decide⟩ 0 ∧ ¬ IDE.ifdsResultsAt w ⟨(0, some (0, 0)), by decide⟩ 0 ∧
    ¬ IDE.ifdsResultsAt w ⟨(0, none), by decide⟩ 0 := by
  have h : (IDE.solve C91.bprob 100).any (fun p => decide (p.2.tab.get (⟨(0, some (0, 1)), by decide⟩, 0) = some .BOTTOM) &&
      (decide (p.2.tab.get (⟨(0, some (0, 0)), by decide⟩, 0) = none) && decide (p.2.tab.get (⟨(0, none), by decide⟩, 0) = none))) =
        true := by decide +kernel
  obtain ⟨⟨s, w⟩, h1, h2⟩ := IDE.exists_of_any h
  simp only [Bool.and_eq_true, decide_eq_true_eq] at h2
  refine ⟨s, w, IDE.solve_sound h1, ?_, ⟨_, h2.1⟩, ?_, ?_⟩
  · have h0 : IDE.FSteps C91.bprob ([], ⟨(0, some (0, 2)), by decide⟩, 0) ([], ⟨(0, some (0, 2)), by decide⟩, 0) := .refl _
    have h3 : IDE.FSteps C91.bprob ([], ⟨(0, some (0, 2)), by decide⟩, 0) ([], ⟨(0, some (0, 1)), by decide⟩, 0) :=
      h0.tail (.normal rfl (by decide) (by decide))
    have h4 : IDE.FSteps C91.bprob ([], ⟨(0, some (0, 2)), by decide⟩, 0) ([], ⟨(0, some (0, 0)), by decide⟩, 0) :=
      h3.tail (.normal rfl (by decide) (by decide))
    have h5 : IDE.FSteps C91.bprob ([], ⟨(0, some (0, 2)), by decide⟩, 0) ([], ⟨(0, none), by decide⟩, 0) :=
      h4.tail (.normal rfl (by decide) (by decide))
    have hseed : IDE.IsSeedFact C91.bprob ⟨(0, some (0, 2)), by decide⟩ 0 :=
      ⟨[(0, .BOTTOM)], List.mem_singleton.2 rfl, Or.inr rfl⟩
    have hall : ∀ a ∈ bvisInstr C91.back, a = (0, some (0, 0)) ∨ a = (0, some (0, 1)) ∨ a = (0, some (0, 2)) ∨ a = (0, none) := by
      decide
    intro n
    obtain ⟨a, ha⟩ := n
    rcases hall a ha with rfl | rfl | rfl | rfl
    · exact ⟨_, _, _, hseed, h4⟩
    · exact ⟨_, _, _, hseed, h3⟩
    · exact ⟨_, _, _, hseed, h0⟩
    · exact ⟨_, _, _, hseed, h5⟩
  · rintro ⟨l, hl⟩
    rw [h2.2.1] at hl; cases hl
  · rintro ⟨l, hl⟩
    rw [h2.2.2] at hl; cases hl

/-- An instance of `C91_backward_none`: the first instruction of the example. -/
example : ∃ s w, IDE.Solved C91.bprob s w ∧ ∀ d, IDE.resultAt w ⟨(0, some (0, 0)), by decide⟩ d = none := by
  obtain ⟨s, w, h, _⟩ := C91_backward_false
  have hu : s.unbal = [] := by
    have hr : ∀ t, IDE.Reach C91.bprob t → t.unbal = [] := by
      intro t ht
      exact IDE.unbal_reach rfl ht
    cases h with
    | intro h1 _ _ _ => exact hr s h1
  refine ⟨s, w, h, C91_backward_none _ C91.back_wf rfl h _ ?_ (by rw [hu]; simp) ?_⟩
  · intro facts hf
    cases (Prod.mk.inj (List.mem_singleton.1 hf)).1
  · exact Or.inr ⟨(0, 0), _, rfl, rfl, rfl, ⟨by decide, fun k hk => absurd hk (Nat.not_lt_zero k)⟩, rfl, by decide⟩

/-- The backward graph of the example: `ret` is start point, the first instruction leads to the `BackwardRet`. -/
example : (bicfg C91.back (bvisInstr C91.back)).starts 0 = [⟨(0, some (0, 2)), by decide⟩] ∧
    (bicfg C91.back (bvisInstr C91.back)).succs ⟨(0, some (0, 0)), by decide⟩ = [⟨(0, none), by decide⟩] ∧
    (bicfg C91.back (bvisInstr C91.back)).nonCallStart = [⟨(0, some (0, 1)), by decide⟩, ⟨(0, some (0, 2)), by decide⟩] := by
  decide

end Phasar.CFG
