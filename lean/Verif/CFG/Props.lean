import Verif.CFG.Lemmas
/-!
# Properties C42 and C47: the intra-procedural control-flow graph
-/
namespace Phasar.CFG

/-! ## C42: the forward graph -/

/-- C42: the successors of a visible instruction are the instructions control may pass to, and no null pointer is
returned.  Branches that check whether a static variable has been initialized are excepted. -/
theorem C42_succs_partial (ign : Bool) (f : Fn) (hw : WF f) (n m : Node) (hn : Visible ign f n) (hm : Visible ign f m)
    (hl : ¬ Lazy f n) : ∃ L, succs ign f n = some L ∧ (m ∈ L ↔ Step ign f n m) := by
  obtain ⟨B, hB, _⟩ := hn.1
  obtain ⟨C, hC, _⟩ := hm.1
  obtain ⟨L, h1, h2⟩ := count_succs hw hn hB hl
  refine ⟨L, h1, ?_⟩
  rw [step_iff hm hB hC, ← h2 m C hC, List.count_pos_iff]

/-- C42: the predecessors of a visible instruction are the instructions control may come from. -/
theorem C42_preds (ign : Bool) (f : Fn) (n m : Node) (hn : Visible ign f n) (hm : Visible ign f m) :
    n ∈ preds ign f m ↔ Step ign f n m := by
  obtain ⟨B, hB, _⟩ := hn.1
  obtain ⟨C, hC, _⟩ := hm.1
  rw [step_iff hm hB hC, ← count_preds hn hm hB hC, List.count_pos_iff]

/-- C42: `m` is listed among the successors of `n` as often as `n` among the predecessors of `m` (more than once if, for
instance, several cases of a `switch` lead to the same block), with debug instructions ignored or not.

Missing: branches that check whether a static variable has been initialized, see `C42_lazy`. -/
theorem C42_inverse_partial (ign : Bool) (f : Fn) (hw : WF f) (n m : Node) (hn : Visible ign f n) (hm : Visible ign f m)
    (hl : ¬ Lazy f n) : ∃ L, succs ign f n = some L ∧ L.count m = (preds ign f m).count n := by
  obtain ⟨B, hB, _⟩ := hn.1
  obtain ⟨C, hC, _⟩ := hm.1
  obtain ⟨L, h1, h2⟩ := count_succs hw hn hB hl
  exact ⟨L, h1, by rw [h2 m C hC, count_preds hn hm hB hC]⟩

/-- C42: a lazy-initialization branch has its first successor only; the other ones still list it as predecessor. -/
theorem C42_lazy (ign : Bool) (f : Fn) (hw : WF f) (n : Node) (hn : Lazy f n) : ∃ B b m, f[n.1]? = some B ∧
    B.succs.head? = some b ∧ m.1 = b ∧ succs ign f n = some [m] ∧ Step ign f n m := by
  obtain ⟨B, h1, h2, h3⟩ := hn
  have hmem := List.mem_of_getElem? h1
  cases hs : B.succs with
  | nil => exact absurd hs (hw.lazy B hmem h3)
  | cons b l =>
    obtain ⟨i, C, c1, c2, c3⟩ := enter_ok (ign := ign) (hw.succs B hmem b (by simp [hs]))
    refine ⟨B, b, (b, i), h1, by rw [hs]; rfl, rfl, ?_, B, C, h1, c1, Or.inr ⟨h2, by simp [hs], (front_iff.1 c3).1⟩⟩
    rw [succs_eq, h1]
    simp only
    rw [(nxt_none (ign := ign)).2 (Nat.le_of_eq h2.symm)]
    simp only [if_pos h3, hs, List.head?_cons, Option.bind_some, c2, Option.map_some]

/-- C42: whatever is a successor has the instruction as predecessor, without exception. -/
theorem C42_succ_pred (ign : Bool) (f : Fn) (hw : WF f) (n m : Node) (hn : Visible ign f n) (hm : Visible ign f m)
    (L : List Node) (hL : succs ign f n = some L) (h : m ∈ L) : n ∈ preds ign f m := by
  rw [C42_preds ign f n m hn hm]
  by_cases hl : Lazy f n
  · obtain ⟨B, b, m', _, _, _, h4, h5⟩ := C42_lazy ign f hw n hl
    rw [hL] at h4
    rw [Option.some.inj h4] at h
    rw [List.mem_singleton.1 h]; exact h5
  · obtain ⟨L', h1, h2⟩ := C42_succs_partial ign f hw n m hn hm hl
    rw [hL] at h1
    rw [← Option.some.inj h1] at h2
    exact h2.1 h

theorem C42.flat (g : Node → Option (List (Node × Node))) (s : Node → List Node) : ∀ (l : List Node),
    (∀ n ∈ l, g n = some ((s n).map (fun m => (n, m)))) → ∃ E, (l.mapM g).map List.flatten = some E ∧
      ∀ n m, E.count (n, m) = l.count n * (s n).count m := by
  intro l
  induction l with
  | nil => intro _; exact ⟨[], rfl, by simp⟩
  | cons x l ih =>
    intro h
    obtain ⟨E, h1, h2⟩ := ih (fun n hn => h n (by simp [hn]))
    cases hl : l.mapM g with
    | none => rw [hl] at h1; cases h1
    | some LL =>
      rw [hl] at h1
      simp only [Option.map_some, Option.some.injEq] at h1
      refine ⟨(s x).map (fun m => (x, m)) ++ E, by rw [List.mapM_cons, h x (by simp), hl, ← h1]; rfl, ?_⟩
      intro n m
      rw [List.count_append, h2 n m, List.count_cons]
      by_cases he : x = n
      · subst he
        have : ((s x).map (fun m => (x, m))).count (x, m) = (s x).count m := by
          induction s x with
          | nil => rfl
          | cons y t iht =>
            rw [List.map_cons, List.count_cons, List.count_cons, iht]
            by_cases hy : y = m
            · simp [hy]
            · simp [hy]
        rw [this, if_pos (by simp), Nat.add_mul]; omega
      · have : ((s x).map (fun m => (x, m))).count (n, m) = 0 := by
          apply List.count_eq_zero.2
          intro hm
          obtain ⟨y, _, hy⟩ := List.mem_map.1 hm
          exact he (Prod.mk.inj hy).1
        rw [this, if_neg (by simp [he]), Nat.zero_add, Nat.add_zero]

theorem C42.total {ign : Bool} {f : Fn} (hw : WF f) {n : Node} (hn : Visible ign f n) : ∃ L, succs ign f n = some L := by
  by_cases hl : Lazy f n
  · obtain ⟨_, _, m', _, _, _, h4, _⟩ := C42_lazy ign f hw n hl
    exact ⟨_, h4⟩
  · obtain ⟨B, hB, _⟩ := hn.1
    obtain ⟨L, h1, _⟩ := count_succs hw hn hB hl
    exact ⟨L, h1⟩

/-- C42: `getAllControlFlowEdges` lists `(n, m)` exactly if `n` is visible and `m` is a successor of `n`, as often as `m`
is listed among the successors. -/
theorem C42_edges (ign : Bool) (f : Fn) (hw : WF f) : ∃ E, allEdges ign f = some E ∧
    (∀ n m, (n, m) ∈ E → Visible ign f n) ∧
    ∀ n m L, Visible ign f n → succs ign f n = some L → E.count (n, m) = L.count m := by
  obtain ⟨E, h1, h2⟩ := C42.flat (fun n => if ign && isDbg f n then some [] else (succs ign f n).map (fun l => l.map (fun m => (n, m))))
    (fun n => if ign && isDbg f n then [] else (succs ign f n).getD []) (instructions f) (by
      intro n hn
      by_cases hd : (ign && isDbg f n) = true
      · simp [hd]
      · have hv : Visible ign f n := ⟨mem_instructions.1 hn, fun hi => by simpa [hi] using hd⟩
        obtain ⟨L, hL⟩ := C42.total hw hv
        simp only [if_neg hd, hL, Option.map_some, Option.getD_some])
  refine ⟨E, h1, ?_, ?_⟩
  · intro n m hm
    have := List.count_pos_iff.2 hm
    rw [h2] at this
    have h3 : 0 < (instructions f).count n := Nat.pos_of_mul_pos_right this
    refine ⟨mem_instructions.1 (List.count_pos_iff.1 h3), fun hi => ?_⟩
    cases hd : isDbg f n with
    | false => rfl
    | true => rw [hi, hd] at this; simp at this
  · intro n m L hv hL
    obtain ⟨B, hB, hle⟩ := hv.1
    have hd : ¬ (ign && isDbg f n) = true := by
      intro h
      simp only [Bool.and_eq_true] at h
      rw [hv.2 h.1] at h; cases h.2
    rw [h2, count_instructions', hB]
    simp only [if_pos hle, Nat.one_mul, if_neg hd, hL, Option.getD_some]

/-- C42: the edges listed are exactly the steps between visible instructions, if there is no lazy-initialization branch. -/
theorem C42_edges_step_partial (ign : Bool) (f : Fn) (hw : WF f) (hl : ∀ n, ¬ Lazy f n) : ∃ E, allEdges ign f = some E ∧
    ∀ n m, Visible ign f m → ((n, m) ∈ E ↔ Visible ign f n ∧ n ∈ preds ign f m) := by
  obtain ⟨E, h1, h2, h3⟩ := C42_edges ign f hw
  refine ⟨E, h1, fun n m hm => ?_⟩
  constructor
  · intro h
    have hn := h2 n m h
    obtain ⟨L, hL, hc⟩ := C42_inverse_partial ign f hw n m hn hm (hl n)
    have := List.count_pos_iff.2 h
    rw [h3 n m L hn hL, hc] at this
    exact ⟨hn, List.count_pos_iff.1 this⟩
  · rintro ⟨hn, h⟩
    obtain ⟨L, hL, hc⟩ := C42_inverse_partial ign f hw n m hn hm (hl n)
    apply List.count_pos_iff.1
    rw [h3 n m L hn hL, hc]
    exact List.count_pos_iff.2 h

/-- C42: the start point of a definition is the first visible instruction of the entry block. -/
theorem C42_start (ign : Bool) (f : Fn) (B : Blk) (hB : f[0]? = some B) : ∃ n, startPoints ign f = some [n] ∧ n.1 = 0 ∧
    Visible ign f n ∧ First ign B n.2 ∧ isStartPoint f n = true := by
  cases f with
  | nil => simp at hB
  | cons B' f =>
    simp only [List.getElem?_cons_zero, Option.some.injEq] at hB
    subst hB
    obtain ⟨i, h1, h2, h3⟩ := front_ok ign B'
    refine ⟨(0, i), by simp only [startPoints, h1, Option.map_some], rfl, ⟨⟨B', rfl, h2.1⟩, fun hi => ?_⟩, h2, ?_⟩
    · show dbgAt B' i = false
      exact h3 hi
    · unfold front at h1
      split at h1
      · rename_i h
        simp only [Bool.and_eq_true] at h
        simp [isStartPoint, h1, h.2]
      · cases h1; simp [isStartPoint]

/-- C42: an instruction that may be branched to is the beginning of a successor block, when debug instructions are not
ignored. -/
theorem C42_branchTarget (f : Fn) (hw : WF f) (n m : Node) (hn : Valid f n) (hm : Valid f m) (hl : ¬ Lazy f n) :
    isBranchTarget f n m = true ↔ (∃ B, f[n.1]? = some B ∧ n.2 = B.ins.length) ∧ ∃ L, succs false f n = some L ∧ m ∈ L := by
  obtain ⟨B, hB, hB2⟩ := hn
  obtain ⟨C, hC, hC2⟩ := hm
  obtain ⟨L, h1, h2⟩ := C42_succs_partial false f hw n m ⟨⟨B, hB, hB2⟩, by simp⟩ ⟨⟨C, hC, hC2⟩, by simp⟩ hl
  have hs : (∃ L, succs false f n = some L ∧ m ∈ L) ↔ Step false f n m := by
    constructor
    · rintro ⟨L', e1, e2⟩
      rw [h1] at e1; cases e1; exact h2.1 e2
    · intro h; exact ⟨L, h1, h2.2 h⟩
  rw [hs]
  simp only [isBranchTarget, hB, Bool.and_eq_true, decide_eq_true_eq, List.any_eq_true]
  simp only [termOf]
  constructor
  · rintro ⟨h3, b, h4, h5⟩
    subst h5
    exact ⟨⟨B, rfl, h3⟩, B, C, hB, hC, Or.inr ⟨h3, h4, Nat.zero_le _, fun k hk => absurd hk (Nat.not_lt_zero k)⟩⟩
  · rintro ⟨⟨B', h3, h4⟩, B'', C', h5, h6, h7⟩
    cases h3
    rw [hB] at h5
    cases h5
    refine ⟨h4, ?_⟩
    rcases h7 with ⟨h8, h9⟩ | ⟨_, h8, h9⟩
    · have h10 := h9.1
      have h11 := h9.2.1
      rw [h4] at h10
      omega
    · refine ⟨m.1, h8, Prod.ext rfl ?_⟩
      show m.2 = 0
      rcases Nat.eq_zero_or_pos m.2 with h | h
      · exact h
      · have := (h9.2 0 h).1; cases this

/-- C42: a declaration has no start points, exit points and edges, and no instruction is a start point or exit of it. -/
theorem C42_declaration (ign : Bool) (n : Node) : startPoints ign [] = some [] ∧ exitPoints [] = [] ∧ allEdges ign [] = some [] ∧
    isStartPoint [] n = false ∧ isExitInst [] n = false := by
  refine ⟨rfl, rfl, rfl, rfl, by simp [isExitInst]⟩

/-- C42: the fall-through successor of a branch is the beginning of its last successor block (the only one of an
unconditional branch, the second of a conditional one); nothing else has a fall-through successor. -/
theorem C42_fallThrough (f : Fn) (n m : Node) (hb : ∀ B ∈ f, ∀ l, B.term = .br l → B.succs.length = 1 ∨ B.succs.length = 2) :
    isFallThrough f n m = true ↔ ∃ B l b, f[n.1]? = some B ∧ n.2 = B.ins.length ∧ B.term = .br l ∧ B.succs.getLast? = some b ∧ m = (b, 0) := by
  unfold isFallThrough
  cases hB : f[n.1]? with
  | none => simp
  | some B =>
    have hb' := hb B (List.mem_of_getElem? hB)
    simp only [Option.some.injEq, Bool.and_eq_true, termOf]
    cases ht : B.term with
    | br l =>
      have hlen := hb' l ht
      constructor
      · rintro ⟨⟨h1, _⟩, h2⟩
        match hs : B.succs, h2 with
        | [b], h2 => exact ⟨B, l, b, rfl, of_decide_eq_true h1, ht, by rw [hs]; rfl, by simpa using h2⟩
        | [a, b], h2 => exact ⟨B, l, b, rfl, of_decide_eq_true h1, ht, by rw [hs]; rfl, by simpa using h2⟩
      · rintro ⟨B', l', b, rfl, h1, _, h3, h4⟩
        refine ⟨⟨decide_eq_true h1, rfl⟩, ?_⟩
        match hs : B.succs with
        | [] => rw [hs] at hlen; simp at hlen
        | [a] => rw [hs] at h3; simp only [List.getLast?_singleton, Option.some.injEq] at h3; simp [h3, h4]
        | [a, a'] => rw [hs] at h3; simp at h3; simp [h3, h4]
        | _ :: _ :: _ :: _ => rw [hs] at hlen; simp at hlen
    | ret =>
      constructor
      · rintro ⟨⟨_, h⟩, _⟩; cases h
      · rintro ⟨B', l', b, rfl, h1, h2, _⟩; rw [ht] at h2; cases h2
    | resume =>
      constructor
      · rintro ⟨⟨_, h⟩, _⟩; cases h
      · rintro ⟨B', l', b, rfl, h1, h2, _⟩; rw [ht] at h2; cases h2
    | other =>
      constructor
      · rintro ⟨⟨_, h⟩, _⟩; cases h
      · rintro ⟨B', l', b, rfl, h1, h2, _⟩; rw [ht] at h2; cases h2

/-! ### Instances -/

/-- `if (guard) init; use;` with debug instructions: block 0 branches on the guard to blocks 1 and 2. -/
def C42.guard (lazyInit : Bool) : Fn :=
  [⟨[.dbg, .plain, .declare], .br lazyInit, [1, 2]⟩, ⟨[.plain], .br false, [2]⟩, ⟨[.dbg, .declare, .plain], .ret, []⟩]

theorem C42.wf (b : Bool) : WF (C42.guard b) := by
  refine ⟨by simp [C42.guard], ?_⟩
  simp [C42.guard]

example : isFallThrough (C42.guard false) (0, 3) (2, 0) = true ∧ isFallThrough (C42.guard false) (0, 3) (1, 0) = false ∧
    isFallThrough (C42.guard false) (1, 1) (2, 0) = true := by decide

example := (C42_fallThrough (C42.guard false) (0, 3) (2, 0) (by simp [C42.guard])).1 (by decide)

/-- A function with a `switch` that leads to block 1 twice and to itself. -/
example : preds true [⟨[.plain], .other, [1, 1, 0]⟩, ⟨[.declare], .ret, []⟩] (1, 1) = [(0, 1), (0, 1)] ∧
    succs true [⟨[.plain], .other, [1, 1, 0]⟩, ⟨[.declare], .ret, []⟩] (0, 1) = some [(1, 1), (1, 1), (0, 0)] := by decide

example : ∃ L, succs true (C42.guard false) (0, 3) = some L ∧ L.count (2, 2) = (preds true (C42.guard false) (2, 2)).count (0, 3) :=
  C42_inverse_partial true _ (C42.wf false) _ _ ⟨⟨_, rfl, by simp⟩, fun _ => by decide⟩ ⟨⟨_, rfl, by simp⟩, fun _ => by decide⟩ (by
    rintro ⟨B, h1, _, h3⟩
    simp only [C42.guard, List.getElem?_cons_zero, Option.some.injEq] at h1
    subst h1
    simp at h3)

example : allEdges true (C42.guard false) = some [((0, 1), (0, 3)), ((0, 3), (1, 0)), ((0, 3), (2, 2)), ((1, 0), (1, 1)),
    ((1, 1), (2, 2)), ((2, 2), (2, 3))] := by decide

/-- The exception: the branch on the guard is a predecessor of block 2 but block 2 is not its successor. -/
theorem C42_false : ∃ f n m, WF f ∧ Visible true f n ∧ Visible true f m ∧ n ∈ preds true f m ∧
    ∃ L, succs true f n = some L ∧ m ∉ L := by
  refine ⟨C42.guard true, (0, 3), (2, 2), C42.wf true, ⟨⟨_, rfl, by simp⟩, fun _ => by decide⟩,
    ⟨⟨_, rfl, by simp⟩, fun _ => by decide⟩, by decide, [(1, 0)], by decide, by decide⟩

/-- `isBranchTarget` does not recognize branch targets in blocks that begin with a debug instruction. -/
theorem C42_branchTarget_false : ∃ f n m, WF f ∧ Visible true f n ∧ Visible true f m ∧ succs true f n = some [m] ∧
    n.1 ≠ m.1 ∧ isBranchTarget f n m = false := by
  refine ⟨C42.guard false, (1, 1), (2, 2), C42.wf false, ⟨⟨_, rfl, by simp⟩, fun _ => by decide⟩,
    ⟨⟨_, rfl, by simp⟩, fun _ => by decide⟩, by decide, by decide, by decide⟩

/-- `isStartPoint` does not know whether debug instructions are ignored: it accepts two instructions, `getStartPointsOf`
returns one. -/
theorem C42_start_false : startPoints true (C42.guard false) = some [(0, 1)] ∧ isStartPoint (C42.guard false) (0, 0) = true ∧
    startPoints false (C42.guard false) = some [(0, 0)] ∧ isStartPoint (C42.guard false) (0, 1) = true := by decide

/-- `getExitPointsOf` returns the `resume` instruction, but `isExitInst` does not accept it. -/
theorem C42_exit_false : exitPoints [⟨[], .resume, []⟩] = [(0, 0)] ∧ isExitInst [⟨[], .resume, []⟩] (0, 0) = false := by decide

/-- C42: apart from `resume`, the exit points are the exit instructions. -/
theorem C42_exit_partial (f : Fn) (hr : ∀ B ∈ f, B.term ≠ .resume) (n : Node) : n ∈ exitPoints f ↔ isExitInst f n = true := by
  unfold exitPoints isExitInst
  simp only [List.mem_map, List.mem_filter, decide_eq_true_eq]
  constructor
  · rintro ⟨⟨B, i⟩, ⟨h1, h2⟩, h3⟩
    have h4 := (List.mem_zipIdx_iff_getElem?.1 h1)
    simp only at h4 h2 h3
    subst h3
    simp only [h4]
    rcases h2 with h2 | h2
    · simp [h2]
    · exact absurd h2 (hr B (List.mem_of_getElem? h4))
  · intro h
    cases hB : f[n.1]? with
    | none => rw [hB] at h; cases h
    | some B =>
      rw [hB] at h
      simp only [decide_eq_true_eq] at h
      exact ⟨(B, n.1), ⟨List.mem_zipIdx_iff_getElem?.2 hB, Or.inl h.2⟩, Prod.ext rfl h.1.symm⟩

/-! ## C47: the backward graph -/

/-- C47: in the backward graph `m` is a successor of `n` as often as it is a predecessor of `n` in the forward graph, and
successors and predecessors are inverse to each other, lazy-initialization branches excepted. -/
theorem C47_mirror_partial (rets ign : Bool) (f : Fn) (hw : WF f) (n m : Node) (hn : Visible ign f n) (hm : Visible ign f m)
    (hl : ¬ Lazy f m) : (bsuccs rets ign f (some n)).count (some m) = (preds ign f n).count m ∧
      ∃ L, bpreds ign f (some m) = some L ∧ L.count (some n) = (bsuccs rets ign f (some n)).count (some m) := by
  have hmap : ∀ (l : List Node) (x : Node), (l.map some).count (some x) = l.count x := by
    intro l x
    induction l with
    | nil => rfl
    | cons y l ih => rw [List.map_cons, List.count_cons, List.count_cons, ih]; simp
  have h1 : (bsuccs rets ign f (some n)).count (some m) = (preds ign f n).count m := by
    simp only [bsuccs]
    split
    · rename_i h
      simp only [Bool.and_eq_true, List.isEmpty_iff, List.map_eq_nil_iff] at h
      rw [h.1]
      simp
    · exact hmap _ _
  refine ⟨h1, ?_⟩
  obtain ⟨L, h2, h3⟩ := C42_inverse_partial ign f hw m n hm hn hl
  refine ⟨L.map some, by simp [bpreds, h2], ?_⟩
  rw [hmap, h1, h3]

/-- C47: if the graph was built with the module's functions, the added return is the only successor of an instruction
without predecessor (the first visible instruction of the entry block or of an unreachable block), and of no other. -/
theorem C47_ret (ign : Bool) (f : Fn) (n : Node) : none ∈ bsuccs true ign f (some n) ↔ preds ign f n = [] := by
  simp only [bsuccs]
  constructor
  · intro h
    cases hp : preds ign f n with
    | nil => rfl
    | cons x l =>
      rw [hp] at h
      simp at h
  · intro h
    simp [h]

/-- C47: the edges listed are the pairs `(m, n)` with `m` a successor of `n` in the backward graph: source and target are
swapped compared to the forward graph. -/
theorem C47_edges (rets ign : Bool) (f : Fn) (n : Node) (m : BNode) (hn : Visible ign f n) :
    (m, some n) ∈ ballEdges rets ign f ↔ m ∈ bsuccs rets ign f (some n) := by
  unfold ballEdges
  simp only [List.mem_flatMap]
  obtain ⟨B, hB, _⟩ := hn.1
  have hd : (ign && decide ((f[n.1]?.bind (fun B => B.ins[n.2]?)) = some .declare)) = false := by
    cases hi : ign with
    | false => rfl
    | true =>
      simp only [hB, Option.bind_some, Bool.true_and, decide_eq_false_iff_not]
      intro h
      have := (hn.dbg hB).2 hi
      unfold dbgAt at this
      rw [h] at this
      cases this
  constructor
  · rintro ⟨n', h1, h2⟩
    split at h2
    · simp at h2
    · obtain ⟨x, h3, h4⟩ := List.mem_map.1 h2
      simp only [Prod.mk.injEq, Option.some.injEq] at h4
      rw [← h4.2, ← h4.1]; exact h3
  · intro h
    refine ⟨n, mem_instructions.2 hn.1, ?_⟩
    rw [hd]
    simp only [Bool.false_eq_true, if_false]
    exact List.mem_map.2 ⟨m, h, rfl⟩

/-- In the forward graph a listed pair is (instruction, successor), in the backward graph (successor, instruction).
Debug instructions other than `dbg.declare` are listed although they are to be ignored. -/
theorem C47_false : ballEdges true true [⟨[.dbg, .plain], .ret, []⟩] =
    [(none, some (0, 0)), (none, some (0, 1)), (some (0, 1), some (0, 2))] ∧
    bsuccs true true [⟨[.dbg, .plain], .ret, []⟩] (some (0, 2)) = [some (0, 1)] ∧
    bpreds true [⟨[.dbg, .plain], .ret, []⟩] none = none := by decide

example : (bsuccs true true (C42.guard false) (some (2, 2))) = [some (0, 3), some (1, 1)] ∧
    bpreds true (C42.guard false) (some (0, 3)) = some [some (1, 0), some (2, 2)] := by decide

/-- Specification: reachability by the steps of a relation. -/
inductive C47.Path {α : Type} (R : α → α → Prop) : α → α → Prop
  | refl (a : α) : C47.Path R a a
  | step {a b c : α} : R a b → C47.Path R b c → C47.Path R a c

theorem C47.Path.snoc {α : Type} {R : α → α → Prop} {a b c : α} (h : C47.Path R a b) (h2 : R b c) : C47.Path R a c := by
  induction h with
  | refl a => exact .step h2 (.refl _)
  | step h1 _ ih => exact .step h1 (ih h2)

/-- C47: in a function without static-initialization branches, the paths of the backward graph are those of the forward
graph read backwards. -/
theorem C47_paths_partial (rets ign : Bool) (f : Fn) (hw : WF f) (hl : ∀ n, ¬ Lazy f n) (a b : Node) :
    C47.Path (fun n m => Visible ign f n ∧ Visible ign f m ∧ ∃ L, succs ign f n = some L ∧ m ∈ L) a b ↔
    C47.Path (fun n m => Visible ign f n ∧ Visible ign f m ∧ some m ∈ bsuccs rets ign f (some n)) b a := by
  have hstep : ∀ n m, Visible ign f n → Visible ign f m →
      ((∃ L, succs ign f n = some L ∧ m ∈ L) ↔ some n ∈ bsuccs rets ign f (some m)) := by
    intro n m hn hm
    obtain ⟨h1, h2⟩ := C47_mirror_partial rets ign f hw m n hm hn (hl n)
    obtain ⟨L, h3, h4⟩ := C42_inverse_partial ign f hw n m hn hm (hl n)
    rw [← List.count_pos_iff (a := some n), h1, ← h4, List.count_pos_iff]
    constructor
    · rintro ⟨L', e1, e2⟩
      rw [h3] at e1; cases e1; exact e2
    · intro h; exact ⟨L, h3, h⟩
  constructor
  · intro h
    induction h with
    | refl a => exact .refl a
    | step h1 _ ih => exact ih.snoc ⟨h1.2.1, h1.1, (hstep _ _ h1.1 h1.2.1).1 h1.2.2⟩
  · intro h
    induction h with
    | refl a => exact .refl a
    | step h1 _ ih => exact ih.snoc ⟨h1.2.1, h1.1, (hstep _ _ h1.2.1 h1.1).2 h1.2.2⟩

/-- C47: with the artificial returns, the start point of a function (whose entry block, as LLVM demands, is no successor) leads
to the function's artificial return, which is its only exit point and leads nowhere. -/
theorem C47_exit (ign : Bool) (f : Fn) (hf : f ≠ []) (he : ∀ B ∈ f, 0 ∉ B.succs) : ∃ n, startPoints ign f = some [n] ∧
    bsuccs true ign f (some n) = [none] ∧ bexitPoints true ign f = some [none] ∧ bisExitInst true f none = true ∧
    bsuccs true ign f none = [] ∧ ∀ m, bisExitInst true f (some m) = false := by
  obtain ⟨B, f', rfl⟩ := List.exists_cons_of_ne_nil hf
  obtain ⟨n, h1, h2, h3, h4, _⟩ := C42_start ign (B :: f') B rfl
  refine ⟨n, h1, ?_, rfl, rfl, rfl, fun m => rfl⟩
  have hp : preds ign (B :: f') n = [] := by
    apply List.eq_nil_iff_forall_not_mem.2
    intro m hm
    have hprev : (if ign then prevNonDbg B n.2 else prevNode n.2) = none := by
      cases ign with
      | true =>
        simp only [if_true]
        have : ∀ i, (∀ k, k < i → dbgAt B k = true) → prevNonDbg B i = none := by
          intro i
          induction i with
          | zero => intro _; rfl
          | succ i ih =>
            intro h
            rw [prevNonDbg, if_pos (h i (by omega))]
            exact ih (fun k hk => h k (by omega))
        exact this n.2 (fun k hk => (h4.2 k hk).2)
      | false =>
        have : n.2 = 0 := by
          rcases Nat.eq_zero_or_pos n.2 with h | h
          · exact h
          · have := (h4.2 0 h).1; cases this
        rw [this]; rfl
    unfold preds at hm
    rw [h2] at hm
    simp only [List.getElem?_cons_zero, hprev] at hm
    obtain ⟨p, hp, _⟩ := List.mem_map.1 hm
    unfold predBlocks at hp
    obtain ⟨q, hq1, hq2⟩ := List.mem_flatMap.1 hp
    have hq3 := (List.mem_replicate.1 hq2).1
    have hq4 : q.1 ∈ B :: f' := List.mem_of_getElem? (List.mem_zipIdx_iff_getElem?.1 hq1)
    exact hq3 (List.count_eq_zero.2 (he q.1 hq4))
  simp only [bsuccs, hp, List.map_nil, List.isEmpty_nil, Bool.true_and, if_true]

/-- C47: the start points of the backward graph are the exit points of the forward graph, and (apart from `resume`) the
instructions recognized as start points. -/
theorem C47_start_partial (f : Fn) (hr : ∀ B ∈ f, B.term ≠ .resume) (n : Node) :
    (some n ∈ bstartPoints f ↔ n ∈ exitPoints f) ∧ (some n ∈ bstartPoints f ↔ bisStartPoint f (some n) = true) := by
  have h : some n ∈ bstartPoints f ↔ n ∈ exitPoints f := by simp [bstartPoints]
  exact ⟨h, h.trans (C42_exit_partial f hr n)⟩

/-- C47: branch targets are mirrored for `BranchInst` only. -/
theorem C47_branchTarget (f : Fn) (n m : Node) :
    bisBranchTarget f n m = true ↔ isBranchTarget f m n = true ∧ ∃ B l, f[m.1]? = some B ∧ B.term = .br l := by
  unfold bisBranchTarget isBranchTarget
  cases hB : f[m.1]? with
  | none => simp
  | some B => cases ht : B.term <;> simp [ht]

/-- The beginning of a case of a `switch` is a branch target of it in the forward graph, but the `switch` is no branch target
in the backward graph.  A return of the function is recognized as a start point, but so is the artificial one that ends the
backward graph. -/
theorem C47_branchTarget_false : isBranchTarget [⟨[.plain], .other, [1, 1]⟩, ⟨[], .ret, []⟩] (0, 1) (1, 0) = true ∧
    bisBranchTarget [⟨[.plain], .other, [1, 1]⟩, ⟨[], .ret, []⟩] (1, 0) (0, 1) = false ∧
    bisStartPoint [⟨[.plain], .other, [1, 1]⟩, ⟨[], .ret, []⟩] none = true := by decide

example := C47_exit true (C42.guard false) (by decide) (by decide)

example : some (2, 3) ∈ bstartPoints (C42.guard false) ∧ bisBranchTarget (C42.guard false) (2, 0) (0, 3) = true := by decide

example : C47.Path (fun n m => Visible true (C42.guard false) n ∧ Visible true (C42.guard false) m ∧
    some m ∈ bsuccs true true (C42.guard false) (some n)) (2, 2) (0, 3) := by
  refine (C47_paths_partial true true (C42.guard false) (C42.wf false) ?_ (0, 3) (2, 2)).1 (.step ⟨⟨⟨_, rfl, by simp⟩, fun _ => by decide⟩,
    ⟨⟨_, rfl, by simp⟩, fun _ => by decide⟩, [(1, 0), (2, 2)], by decide, by decide⟩ (.refl _))
  rintro ⟨i, j⟩ ⟨B, h1, _, h3⟩
  have := List.mem_of_getElem? h1
  simp only [C42.guard, List.mem_cons, List.not_mem_nil, or_false] at this
  rcases this with e | e | e <;> subst e <;> simp at h3

end Phasar.CFG
