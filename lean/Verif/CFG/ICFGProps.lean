import Verif.CFG.ICFGLemmas
import Verif.IDE.Props
/-!
# Property C91: the inter-procedural control-flow graph meets what the solver theorems assume

The theorems about the IDE solver assume that the queries of the ICFG fit together (`IDE.ICFG.WF`, `WFV`, `UniqueStart`).
-/
namespace Phasar.CFG
open Phasar JoinLat

/-! ## The forward graph -/

/-- C91: whatever statements are looked at, successors and return sites stay in the function, and start points belong to their
function. -/
theorem C91_wf (m : Prog) (K : List GNode) : (icfg m K).WF where
  succs_fun := by
    intro n n' h
    obtain ⟨k, _, hk⟩ := List.mem_map.1 (mem_lift.1 h)
    show n'.1.1 = n.1.1
    rw [← hk]
  ret_fun := by
    intro n n' h
    obtain ⟨k, _, hk⟩ := List.mem_map.1 (mem_lift.1 h)
    show n'.1.1 = n.1.1
    rw [← hk]
  start_fun := by
    intro f n h
    obtain ⟨k, _, hk⟩ := List.mem_map.1 (mem_lift.1 h)
    show n.1.1 = f
    rw [← hk]

/-- C91: a function has at most one start point. -/
theorem C91_unique (m : Prog) (K : List GNode) : (icfg m K).UniqueStart := by
  intro f sp sp' h h'
  have h := mem_lift.1 h
  have h' := mem_lift.1 h'
  apply Subtype.ext
  rcases gstarts_eq (m := m) (g := f) with ⟨_, e⟩ | ⟨B, i, _, e, _, _⟩
  · rw [e] at h; simp at h
  · rw [e] at h h'
    rw [List.mem_singleton.1 h, List.mem_singleton.1 h']

/-- C91: what the queries answer, for statements that are no debug instructions: successors are the instructions control may pass
to (except for lazy-initialization branches), return sites are the successors, the start point is the first visible instruction
of the entry block and is recognized, exits are the `ret` instructions, the calls in a function are its `CallBase`
instructions, and the statements that are neither call nor start are just these. -/
theorem C91_queries_partial (m : Prog) (hm : m.WF) (n n' : {a : GNode // a ∈ visInstr m}) (g : Nat) :
    (¬ Lazy (m.fns n.1.1) n.1.2 → (n' ∈ (icfg m (visInstr m)).succs n ↔
        n'.1.1 = n.1.1 ∧ Step true (m.fns n.1.1) n.1.2 n'.1.2)) ∧
    (icfg m (visInstr m)).retSites n = (icfg m (visInstr m)).succs n ∧
    (n ∈ (icfg m (visInstr m)).starts g ↔ n.1.1 = g ∧ n.1.2.1 = 0 ∧
        ∃ B, (m.fns g)[0]? = some B ∧ First true B n.1.2.2) ∧
    ((icfg m (visInstr m)).isStart n = true ↔ n ∈ (icfg m (visInstr m)).starts n.1.1) ∧
    ((icfg m (visInstr m)).isExit n = true ↔
        ∃ B, (m.fns n.1.1)[n.1.2.1]? = some B ∧ n.1.2.2 = B.ins.length ∧ B.term = .ret) ∧
    (n ∈ (icfg m (visInstr m)).callsIn g ↔ n.1.1 = g ∧ m.isCall n.1 = true) ∧
    (n ∈ (icfg m (visInstr m)).nonCallStart ↔ m.isCall n.1 = false ∧ n ∉ (icfg m (visInstr m)).starts n.1.1) ∧
    ((icfg m (visInstr m)).funOf n = n.1.1 ∧ (icfg m (visInstr m)).isCall n = m.isCall n.1 ∧
      (icfg m (visInstr m)).callees n = m.callees n.1 ∧ (n ∈ (icfg m (visInstr m)).callers g ↔ n.1 ∈ m.callers g)) := by
  obtain ⟨a1, a2⟩ := mem_visInstr.1 n.2
  obtain ⟨b1, b2⟩ := mem_visInstr.1 n'.2
  have hst : (icfg m (visInstr m)).isStart n = true ↔ n ∈ (icfg m (visInstr m)).starts n.1.1 := by
    refine (isStartPoint_iff (a := n.1)).trans (Iff.trans ?_ mem_lift.symm)
    constructor
    · rintro (h | ⟨h, hf⟩)
      · exact h
      · rcases gstarts_eq (m := m) (g := n.1.1) with ⟨e, _⟩ | ⟨B, i, e1, e2, e3, e4⟩
        · exact absurd e hf
        · have hd := a2.2 rfl
          rw [isDbg_eq (B := B) (by rw [h]; exact e1), h] at hd
          have : i = 0 := by
            rcases Nat.eq_zero_or_pos i with h0 | h0
            · exact h0
            · rw [(e3.2 0 h0).2] at hd; cases hd
          rw [e2, this, ← h]
          simp
    · exact Or.inl
  refine ⟨fun hl => ?_, rfl, ?_, hst, ?_, ?_, ?_, rfl, rfl, rfl, mem_lift⟩
  · refine mem_lift.trans ?_
    unfold gsuccs
    constructor
    · intro h
      obtain ⟨k, hk, e⟩ := List.mem_map.1 h
      have e1 : n'.1.1 = n.1.1 := by rw [← e]
      have e2 : n'.1.2 = k := by rw [← e]
      rw [e1] at b2
      obtain ⟨L, h1, h2⟩ := C42_succs_partial true _ (hm.fns _ a1) n.1.2 n'.1.2 a2 b2 hl
      rw [h1, ← e2] at hk
      exact ⟨e1, h2.1 hk⟩
    · rintro ⟨e1, h⟩
      rw [e1] at b2
      obtain ⟨L, h1, h2⟩ := C42_succs_partial true _ (hm.fns _ a1) n.1.2 n'.1.2 a2 b2 hl
      rw [h1]
      exact List.mem_map.2 ⟨n'.1.2, h2.2 h, Prod.ext e1.symm rfl⟩
  · refine mem_lift.trans ?_
    rcases gstarts_eq (m := m) (g := g) with ⟨e, e'⟩ | ⟨B, i, e1, e2, e3, e4⟩
    · rw [e', e]; simp
    · rw [e2, List.mem_singleton]
      constructor
      · intro h; rw [h]; exact ⟨rfl, rfl, B, e1, e3⟩
      · rintro ⟨rfl, h2, C, h3, h4⟩
        rw [e1] at h3
        cases h3
        have hd := a2.2 rfl
        rw [isDbg_eq (B := B) (by rw [h2]; exact e1)] at hd
        have := First.unique h4 e3 (fun _ => hd) (fun _ => e4)
        exact Prod.ext rfl (Prod.ext h2 this)
  · show isExitInst _ _ = true ↔ _
    unfold isExitInst
    cases hB : (m.fns n.1.1)[n.1.2.1]? with
    | none => simp
    | some B =>
      simp only [Option.some.injEq, exists_eq_left', termOf]
      exact decide_eq_true_iff
  · refine mem_lift.trans ?_
    unfold callsFromWithin
    rw [List.mem_filter, List.mem_map]
    constructor
    · rintro ⟨⟨k, hk, e⟩, h⟩
      exact ⟨by rw [← e], h⟩
    · rintro ⟨rfl, h⟩
      exact ⟨⟨n.1.2, mem_instructions.2 a2.1, rfl⟩, h⟩
  · refine mem_lift.trans ?_
    unfold nonCallStarts
    rw [List.mem_filter, Bool.and_eq_true, Bool.not_eq_true', Bool.not_eq_true', ← hst]
    constructor
    · rintro ⟨_, h1, h2⟩
      exact ⟨h1, fun h => by rw [show isStartPoint _ _ = true from h] at h2; cases h2⟩
    · rintro ⟨h1, h2⟩
      exact ⟨visInstr_sub n.2, h1, Bool.eq_false_iff.2 h2⟩

/-- C91: looking at visible statements only drops nothing the solver could get to: the successors of every instruction, the start
points of the module's functions and the statements that are neither call nor start are visible, and no null pointer is
returned; among the calls in a function exactly the debug instructions are dropped. -/
theorem C91_visible (m : Prog) (hm : m.WF) : (∀ n : {a : GNode // a ∈ visInstr m},
      ∃ L, succs true (m.fns n.1.1) n.1.2 = some L ∧
        ((icfg m (visInstr m)).succs n).map Subtype.val = L.map fun k => (n.1.1, k)) ∧
    (∀ n : {a : GNode // a ∈ allInstr m}, ∃ L, succs true (m.fns n.1.1) n.1.2 = some L ∧
        ((icfg m (allInstr m)).succs n).map Subtype.val = (L.map fun k => (n.1.1, k)) ∧ ∀ k ∈ L, (n.1.1, k) ∈ visInstr m) ∧
    (∀ g ∈ m.funs, ∃ L, startPoints true (m.fns g) = some L ∧
        ((icfg m (visInstr m)).starts g).map Subtype.val = L.map fun k => (g, k)) ∧
    (icfg m (visInstr m)).nonCallStart.map Subtype.val = (allInstr m).filter (fun a => !m.isCall a && !isStartPoint (m.fns a.1) a.2) ∧
    (∀ g ∈ m.funs, ((icfg m (visInstr m)).callsIn g).map Subtype.val =
      ((instructions (m.fns g)).map fun n => (g, n)).filter (fun a => m.isCall a && !isDbg (m.fns g) a.2)) := by
  have hall : ∀ a ∈ allInstr m, ∃ L, succs true (m.fns a.1) a.2 = some L ∧ gsuccs m a = L.map fun k => (a.1, k) := by
    intro a ha
    obtain ⟨h1, h2⟩ := mem_allInstr.1 ha
    obtain ⟨_, L, _, h3, _⟩ := succs_shape (hm.fns a.1 h1) h2
    exact ⟨L, h3, by unfold gsuccs; rw [h3]; rfl⟩
  refine ⟨fun n => ?_, fun n => ?_, fun g hg => ?_, ?_, fun g hg => ?_⟩
  · obtain ⟨L, h1, h2⟩ := hall n.1 (visInstr_sub n.2)
    exact ⟨L, h1, (lift_val fun k hk => gsuccs_vis hm (visInstr_sub n.2) hk).trans h2⟩
  · obtain ⟨L, h1, h2⟩ := hall n.1 n.2
    refine ⟨L, h1, (lift_val fun k hk => visInstr_sub (gsuccs_vis hm n.2 hk)).trans h2, fun k hk => ?_⟩
    exact gsuccs_vis hm n.2 (h2 ▸ List.mem_map.2 ⟨k, hk, rfl⟩)
  · have h1 : ∃ L, startPoints true (m.fns g) = some L := by
      cases hf : m.fns g with
      | nil => exact ⟨_, rfl⟩
      | cons B l =>
        obtain ⟨n, h, _⟩ := C42_start true (B :: l) B rfl
        exact ⟨_, h⟩
    obtain ⟨L, h1⟩ := h1
    refine ⟨L, h1, (lift_val fun k hk => gstarts_vis hg hk).trans ?_⟩
    unfold gstarts; rw [h1]; rfl
  · refine lift_val fun a ha => ?_
    obtain ⟨h1, h2⟩ := List.mem_filter.1 ha
    obtain ⟨h3, h4⟩ := mem_allInstr.1 h1
    refine mem_visInstr.2 ⟨h3, h4, fun _ => Bool.eq_false_iff.2 fun hd => ?_⟩
    rw [hm.dbg a.1 h3 a.2 hd] at h2
    cases h2
  · refine lift_filter.trans ?_
    unfold callsFromWithin
    rw [List.filter_filter]
    apply List.filter_congr
    intro a ha
    obtain ⟨k, hk, rfl⟩ := List.mem_map.1 ha
    have : (g, k) ∈ visInstr m ↔ isDbg (m.fns g) k = false := by
      rw [mem_visInstr]
      exact ⟨fun h => h.2.2 rfl, fun h => ⟨hg, mem_instructions.1 hk, fun _ => h⟩⟩
    cases hd : isDbg (m.fns g) k <;> simp [this, hd]

/-- C91: on the statements that are no debug instructions, the queries fit together as the solver theorems assume. -/
theorem C91_wfv (m : Prog) (hm : m.WF) : (icfg m (visInstr m)).WFV where
  toWF := C91_wf m _
  start_no_pred := by
    intro f sp h
    have key : ∀ n : {a : GNode // a ∈ visInstr m}, sp.1 ∉ gsuccs m n.1 := by
      intro n hk
      obtain ⟨h1, _, h2, _⟩ := gstarts_nopred hm (visInstr_sub n.2) hk (mem_lift.1 h)
      have h3 := (mem_visInstr.1 n.2).2.2 rfl
      rw [h1, h2] at h3
      cases h3
    exact ⟨fun n h => key n (mem_lift.1 h), fun n h => key n (mem_lift.1 h)⟩
  isStart_iff := fun n => (C91_queries_partial m hm n n 0).2.2.2.1
  callsIn_iff := fun g n => (C91_queries_partial m hm n n g).2.2.2.2.2.1.trans And.comm
  ncs_iff := fun n => by
    refine (C91_queries_partial m hm n n 0).2.2.2.2.2.2.1.trans (and_congr Iff.rfl ?_)
    rw [← (C91_queries_partial m hm n n 0).2.2.2.1]
    exact Bool.eq_false_iff.symm

/-- C91: on all instructions they do so exactly if no function begins with a debug instruction. -/
theorem C91_wfv_all (m : Prog) (hm : m.WF) : (icfg m (allInstr m)).WFV ↔ ∀ g ∈ m.funs, ¬ StartsDbg (m.fns g) := by
  constructor
  · rintro h g hg ⟨B, hB, hd⟩
    have hmem : (g, 0, 0) ∈ allInstr m := mem_allInstr.2 ⟨hg, B, hB, Nat.zero_le _⟩
    have h1 := (h.isStart_iff ⟨(g, 0, 0), hmem⟩).1 ((isStartPoint_iff (a := (g, 0, 0))).2
      (Or.inr ⟨rfl, fun e => by rw [show m.fns g = [] from e] at hB; cases hB⟩))
    have h1 := mem_lift.1 h1
    rcases gstarts_eq (m := m) (g := g) with ⟨_, e⟩ | ⟨C, i, e1, e2, e3, e4⟩
    · rw [show (icfg m (allInstr m)).funOf ⟨(g, 0, 0), hmem⟩ = g from rfl, e] at h1
      simp at h1
    · rw [show (icfg m (allInstr m)).funOf ⟨(g, 0, 0), hmem⟩ = g from rfl, e2, List.mem_singleton] at h1
      simp only [Prod.mk.injEq, true_and] at h1
      rw [hB] at e1
      cases e1
      rw [← h1, hd] at e4
      cases e4
  · intro hd
    have hst : ∀ n : {a : GNode // a ∈ allInstr m}, isStartPoint (m.fns n.1.1) n.1.2 = true ↔ n.1 ∈ gstarts m n.1.1 := by
      intro n
      rw [isStartPoint_iff]
      refine ⟨?_, Or.inl⟩
      rintro (h | ⟨h, hf⟩)
      · exact h
      · rcases gstarts_eq (m := m) (g := n.1.1) with ⟨e, _⟩ | ⟨B, i, e1, e2, e3, e4⟩
        · exact absurd e hf
        · have : i = 0 := by
            rcases Nat.eq_zero_or_pos i with h0 | h0
            · exact h0
            · exact absurd ⟨B, e1, (e3.2 0 h0).2⟩ (hd _ (mem_allInstr.1 n.2).1)
          rw [e2, this, ← h]
          simp
    refine ⟨C91_wf m _, ?_, ?_, ?_, ?_⟩
    · intro f sp h
      have key : ∀ n : {a : GNode // a ∈ allInstr m}, sp.1 ∉ gsuccs m n.1 := by
        intro n hk
        obtain ⟨h1, _, _, h2⟩ := gstarts_nopred hm n.2 hk (mem_lift.1 h)
        exact hd f (h1 ▸ (mem_allInstr.1 n.2).1) h2
      exact ⟨fun n h => key n (mem_lift.1 h), fun n h => key n (mem_lift.1 h)⟩
    · exact fun n => (hst n).trans mem_lift.symm
    · intro g n
      refine mem_lift.trans ?_
      unfold callsFromWithin
      rw [List.mem_filter, List.mem_map]
      constructor
      · rintro ⟨⟨k, hk, e⟩, h⟩
        exact ⟨h, by show n.1.1 = g; rw [← e]⟩
      · rintro ⟨h, rfl⟩
        exact ⟨⟨n.1.2, mem_instructions.2 (mem_allInstr.1 n.2).2, rfl⟩, h⟩
    · intro n
      refine mem_lift.trans ?_
      unfold nonCallStarts
      rw [List.mem_filter, Bool.and_eq_true, Bool.not_eq_true', Bool.not_eq_true']
      exact ⟨fun h => h.2, fun h => ⟨n.2, h⟩⟩

/-- C91 with C01: the solver is exact for IFDS problems on an `LLVMBasedICFG`, without any assumption on the graph but what LLVM
guarantees. -/
theorem C91_ifds {D : Type} [DecidableEq D] (m : Prog) (hm : m.WF)
    {P : IDE.Problem {a : GNode // a ∈ visInstr m} D Nat BinaryDomain (EF Empty BinaryDomain)}
    (hP : P.icf = icfg m (visInstr m)) (hI : IDE.IsIFDS P) (hfr : P.followReturnsPastSeeds = false)
    (hs : ∀ n facts, (n, facts) ∈ P.seeds → n.1.2.1 = 0 ∧ ∃ B, (m.fns n.1.1)[0]? = some B ∧ First true B n.1.2.2)
    (hsum : ∀ n g, P.summaryFlow n g = none)
    {s : IDE.St {a : GNode // a ∈ visInstr m} D (EF Empty BinaryDomain)} {w : IDE.VS {a : GNode // a ∈ visInstr m} D BinaryDomain}
    (h : IDE.Solved P s w) (n : {a : GNode // a ∈ visInstr m}) (d : D) :
    IDE.ifdsResultsAt w n d ↔ IDE.FactReachable P n d := by
  refine IDE.C01_ifds_exact hI (hP ▸ C91_wfv m hm) (hP ▸ C91_unique m _) hfr ?_ ?_ h n d
  · intro k facts hk
    rw [hP]
    obtain ⟨h1, B, h2, h3⟩ := hs k facts hk
    exact (C91_queries_partial m hm k k _).2.2.1.2 ⟨rfl, h1, B, h2, h3⟩
  · intro k g sm _ hk
    rw [hsum] at hk
    cases hk

/-- C91 with C02: the value the solver reports is above the value of every realizable run. -/
theorem C91_ide {D L E : Type} [DecidableEq D] [JoinLat L] [DecidableEq L] (m : Prog) (hm : m.WF)
    {P : IDE.Problem {a : GNode // a ∈ visInstr m} D Nat L E} (hP : P.icf = icfg m (visInstr m)) {ok : E → Prop}
    (hA : P.alg.Sound ok) (hE : P.OkEdges ok) (hnt : P.NoTop ok)
    (hs : ∀ n facts, (n, facts) ∈ P.seeds → n.1.2.1 = 0 ∧ ∃ B, (m.fns n.1.1)[0]? = some B ∧ First true B n.1.2.2)
    {s : IDE.St {a : GNode // a ∈ visInstr m} D E} {w : IDE.VS {a : GNode // a ∈ visInstr m} D L}
    (h : IDE.Solved P s w) (n : {a : GNode // a ∈ visInstr m}) (d : D) (x : L) (hr : IDE.RunVal P n d x) :
    ∃ l, IDE.resultAt w n d = some l ∧ x ⊑ l := by
  refine IDE.C02_sound hA hE (hP ▸ C91_wfv m hm) hnt ?_ h n d x hr
  intro k facts hk
  rw [hP]
  obtain ⟨h1, B, h2, h3⟩ := hs k facts hk
  exact (C91_queries_partial m hm k k _).2.2.1.2 ⟨rfl, h1, B, h2, h3⟩

/-! ### An instance: a `main` whose body begins with a debug instruction and calls a function with a loop -/

/-- `main`: a debug instruction, a call of 1, `ret`; 1: an instruction, a loop, `ret`. -/
def C91.fns : Nat → Fn
  | 0 => [⟨[.dbg, .plain, .plain], .ret, []⟩]
  | 1 => [⟨[.plain], .br false, [1]⟩, ⟨[.plain], .br false, [1, 2]⟩, ⟨[], .ret, []⟩]
  | _ => []

/-- The program. -/
def C91.prog : Prog where
  funs := [0, 1]
  fns := C91.fns
  isCall := fun a => decide (a = (0, 0, 0)) || decide (a = (0, 0, 1))
  callees := fun a => if a = (0, 0, 1) then [1] else []
  callers := fun g => if g = 1 then [(0, 0, 1)] else []

theorem C91.prog_wf : C91.prog.WF where
  fns := by
    intro g hg
    rcases List.mem_cons.1 hg with rfl | hg
    · exact ⟨by decide, by decide⟩
    · rw [List.mem_singleton.1 hg]
      exact ⟨by decide, by decide⟩
  entry := by decide
  dbg := by
    intro g hg n h
    have hn : n ∈ instructions (C91.prog.fns g) := by
      rw [mem_instructions]
      unfold isDbg at h
      cases hB : (C91.prog.fns g)[n.1]? with
      | none => rw [hB] at h; cases h
      | some B =>
        rw [hB] at h
        refine ⟨B, hB, Nat.le_of_not_lt fun hlt => ?_⟩
        have h' : dbgAt B n.2 = true := h
        rw [dbgAt_term B (Nat.le_of_lt hlt)] at h'
        cases h'
    have : ∀ g ∈ C91.prog.funs, ∀ n ∈ instructions (C91.prog.fns g), isDbg (C91.prog.fns g) n = true →
        C91.prog.isCall (g, n) = true := by decide
    exact this g hg n hn h
  exits := by decide

/-- A taint-like problem on it: fact 0 is zero, the call passes 0 on, the first instruction of 1 generates fact 1. -/
def C91.prob : IDE.Problem {a : GNode // a ∈ visInstr C91.prog} Nat Nat BinaryDomain (EF Empty BinaryDomain) where
  icf := icfg C91.prog (visInstr C91.prog)
  alg := IDE.ifdsAlg
  normalFlow := fun n _ d => if n.1 = (1, 0, 0) ∧ d = 0 then [0, 1] else [d]
  callFlow := fun _ _ d => [d]
  retFlow := fun _ _ _ _ d => [d]
  ctrFlow := fun _ _ d => if d = 0 then [0] else []
  summaryFlow := fun _ _ => none
  normalEdge := fun _ _ _ _ => .id
  callEdge := fun _ _ _ _ => .id
  retEdge := fun _ _ _ _ _ _ => .id
  ctrEdge := fun _ _ _ _ => .id
  sumEdge := fun _ _ _ _ => .id
  zero := 0
  seeds := [(⟨(0, 0, 1), by decide⟩, [(0, .BOTTOM)])]
  followReturnsPastSeeds := false

theorem C91.prob_ifds : IDE.IsIFDS C91.prob where
  alg := rfl
  normal := fun _ _ _ _ => rfl
  call := fun _ _ _ _ => rfl
  ret := fun _ _ _ _ _ _ => rfl
  ctr := fun _ _ _ _ => rfl
  sum := fun _ _ _ _ => rfl
  seeds := by
    intro n facts h d v hd
    obtain ⟨_, rfl⟩ := Prod.mk.inj (List.mem_singleton.1 h)
    exact (Prod.mk.inj (List.mem_singleton.1 hd)).2

/-- `main` begins with a debug instruction, so the queries do not fit together on all instructions, but on the visible ones
they do. -/
example : ¬ (icfg C91.prog (allInstr C91.prog)).WFV ∧ (icfg C91.prog (visInstr C91.prog)).WFV :=
  ⟨fun h => (C91_wfv_all _ C91.prog_wf).1 h 0 (by decide) ⟨_, rfl, rfl⟩, C91_wfv _ C91.prog_wf⟩

/-- The solver runs to the end on the instance, and reports fact 1 behind the call. -/
example : ∃ s w, IDE.Solved C91.prob s w ∧ IDE.ifdsResultsAt w ⟨(0, 0, 2), by decide⟩ 1 ∧
    ¬ IDE.ifdsResultsAt w ⟨(1, 0, 0), by decide⟩ 1 ∧ ∀ n d, IDE.ifdsResultsAt w n d ↔ IDE.FactReachable C91.prob n d := by
  have h : (IDE.solve C91.prob 100).any (fun p => decide (p.2.tab.get (⟨(0, 0, 2), by decide⟩, 1) = some .BOTTOM) &&
      decide (p.2.tab.get (⟨(1, 0, 0), by decide⟩, 1) = none)) = true := by decide +kernel
  obtain ⟨⟨s, w⟩, h1, h2⟩ := IDE.exists_of_any h
  have hS := IDE.solve_sound h1
  simp only [Bool.and_eq_true, decide_eq_true_eq] at h2
  refine ⟨s, w, hS, ⟨_, h2.1⟩, ?_, C91_ifds _ C91.prog_wf rfl C91.prob_ifds rfl ?_ (fun _ _ => rfl) hS⟩
  · rintro ⟨l, hl⟩
    rw [h2.2] at hl
    cases hl
  · intro n facts hn
    obtain ⟨rfl, _⟩ := Prod.mk.inj (List.mem_singleton.1 hn)
    exact ⟨rfl, _, rfl, by decide, by decide⟩

end Phasar.CFG
