import Verif.Mono.Props
import Verif.Mono.InterLemmas
/-!
# Property C24: what a run of `InterMonoSolver` does compute
-/
set_option linter.unusedSectionVars false
namespace Phasar
open InterMono
variable {N F C : Type} [DecidableEq N] [DecidableEq F]

/-! ### Single edges -/

/-- C24, partial: in every state of a run, processing an edge from an ordinary statement stores at the target, for every
context of the source, the merge of the facts that flow there from the source and (at a branch target) from the other
predecessors, in that context; it changes nothing else, and queues the edges out of the target if a value changed.
Missing: the composition of the steps, see `C24_return_not_propagated`. -/
theorem C24_normal_step_partial (P : MProb N F C) (heq : ∀ a b, P.equalTo a b = true ↔ a = b) (s : St N F C)
    (hr : Reached P s) (src dst : N) (hc : P.isCall src = false) (he : P.isExit src = false) :
    (∀ n x, val P (step P src dst s).an n x =
      if n = dst ∧ x ∈ ctxs s.an src then
        (if P.branchTarget src dst then
          ((P.preds dst).filter (fun p => p ≠ src)).foldl (fun o p => P.merge o (P.normalFlow p (val P s.an p x)))
            (P.normalFlow src (val P s.an src x))
        else P.normalFlow src (val P s.an src x))
      else val P s.an n x) ∧
    (∀ x, val P (step P src dst s).an dst x ≠ val P s.an dst x →
      (src, dst) ∈ (step P src dst s).wl ∧ (∀ n ∈ P.succs dst, (dst, n) ∈ (step P src dst s).wl) ∧
      (P.isCall dst = true → ∀ f ∈ P.callees dst, ∀ n ∈ P.starts f, (dst, n) ∈ (step P src dst s).wl)) ∧
    ∀ e ∈ s.wl, e ∈ (step P src dst s).wl := by
  have h0 : step P src dst s = (ctxs s.an src).foldl (normalCtx P src dst) s := by simp [step, hc, he]
  obtain ⟨h1, h2, h3⟩ := normal_fold heq src dst (ctxs s.an src) s (ctxs_nodup (reached_distinct hr) src)
  rw [h0]
  refine ⟨h1, fun x hne => ?_, h2⟩
  have hx : x ∈ ctxs s.an src := by
    apply Classical.byContradiction
    intro hx
    apply hne
    rw [h1]
    simp [hx]
  have hne' : val P s.an dst x ≠ normalOut P s.an src dst x := by
    intro e
    apply hne
    rw [h1, if_pos ⟨rfl, hx⟩]
    exact e.symm
  have h4 := h3 x hx hne'
  refine ⟨h4 _ (by simp [pushed]), fun n hn => h4 _ ?_, fun hd f hf n hn => h4 _ ?_⟩
  · simp [pushed, hn]
  · simp only [pushed, hd, if_true, List.mem_cons, List.mem_append, List.mem_flatMap, List.mem_map]
    exact .inr (.inl (.inr ⟨f, hf, n, hn, rfl⟩))

/-- C24, partial: the same for a call edge once the callees are known: the facts of the call site in each context are
passed to the start point in the extended context. (Two contexts that are extended to the same one, because the oldest call
site is dropped, compete: one of them wins, see `C24_collision_livelock`.) -/
theorem C24_call_step_partial (P : MProb N F C) (heq : ∀ a b, P.equalTo a b = true ↔ a = b) (s : St N F C)
    (src dst : N) (hc : P.isCall src = true) (hf : P.funOf src ≠ P.funOf dst)
    (hk : ∀ f ∈ P.callees src, f ∈ s.added) :
    (∀ x ∈ ctxs s.an src, ∃ x' ∈ ctxs s.an src, CallString.push P.K x' src = CallString.push P.K x src ∧
      val P (step P src dst s).an dst (CallString.push P.K x src) = P.callFlow src (P.funOf dst) (val P s.an src x')) ∧
    (∀ n y, ¬ (n = dst ∧ ∃ x ∈ ctxs s.an src, y = CallString.push P.K x src) →
      val P (step P src dst s).an n y = val P s.an n y) ∧
    (∀ y, val P (step P src dst s).an dst y ≠ val P s.an dst y →
      (src, dst) ∈ (step P src dst s).wl ∧ (∀ n ∈ P.succs dst, (dst, n) ∈ (step P src dst s).wl)) ∧
    ∀ e ∈ s.wl, e ∈ (step P src dst s).wl := by
  have h0 : step P src dst s = (ctxs s.an src).foldl (callCtx P src dst) s := by
    simp only [step, hc, if_true, addCallees_known hk, if_neg hf]
  obtain ⟨h1, h2, h3⟩ := call_fold heq (fun e : src = dst => hf (congrArg P.funOf e)) (ctxs s.an src) s
  rw [h0]
  refine ⟨fun x hx => ?_, fun n y hn => ?_, fun y hne => ?_, h2⟩
  · rcases h1 dst (CallString.push P.K x src) with ⟨_, h⟩ | ⟨_, x', q1, q2, q3⟩
    · exact absurd ⟨rfl, x, hx, rfl⟩ h
    · exact ⟨x', q1, q2.symm, q3⟩
  · rcases h1 n y with ⟨h, _⟩ | ⟨q0, x', q1, q2, q3⟩
    · exact h
    · exact absurd ⟨q0, x', q1, q2⟩ hn
  · have h4 := h3 y hne
    exact ⟨h4 _ (by simp [pushed]), fun n hn => h4 _ (by simp [pushed, hn])⟩

/-- C24, partial: the same for a call-to-return edge: contexts stay as they are. -/
theorem C24_call_to_return_step_partial (P : MProb N F C) (heq : ∀ a b, P.equalTo a b = true ↔ a = b) (s : St N F C)
    (hr : Reached P s) (src dst : N) (hc : P.isCall src = true) (hf : P.funOf src = P.funOf dst)
    (hk : ∀ f ∈ P.callees src, f ∈ s.added) :
    (∀ n x, val P (step P src dst s).an n x =
      if n = dst ∧ x ∈ ctxs s.an src then P.ctrFlow src dst (P.callees src) (val P s.an src x) else val P s.an n x) ∧
    (∀ x, val P (step P src dst s).an dst x ≠ val P s.an dst x →
      (src, dst) ∈ (step P src dst s).wl ∧ ∀ n ∈ P.succs dst, (dst, n) ∈ (step P src dst s).wl) ∧
    ∀ e ∈ s.wl, e ∈ (step P src dst s).wl := by
  have h0 : step P src dst s = (ctxs s.an src).foldl (ctrCtx P src dst) s := by
    simp only [step, hc, if_true, addCallees_known hk, if_pos hf]
  obtain ⟨h1, h2, h3⟩ := ctr_fold heq src dst (ctxs s.an src) s (ctxs_nodup (reached_distinct hr) src)
  rw [h0]
  refine ⟨h1, fun x hne => ?_, h2⟩
  have hx : x ∈ ctxs s.an src := by
    apply Classical.byContradiction
    intro hx
    apply hne
    rw [h1]
    simp [hx]
  have hne' : val P s.an dst x ≠ P.ctrFlow src dst (P.callees src) (val P s.an src x) := by
    intro e
    apply hne
    rw [h1, if_pos ⟨rfl, hx⟩]
    exact e.symm
  have h4 := h3 x hx hne'
  exact ⟨h4 _ (by simp [pushed]), fun n hn => h4 _ (by simp [pushed, hn])⟩

theorem C24.Mono.le_right {P : MProb N F C} (hm : C24.Mono P) (a b : C) : Le P b (P.merge a b) := by
  rw [hm.comm]; exact hm.le_left b a

theorem C24.Mono.merge_le {P : MProb N F C} (hm : C24.Mono P) {a b u : C} (h1 : Le P a u) (h2 : Le P b u) :
    Le P (P.merge a b) u := by
  unfold Le at *
  rw [hm.assoc, h2, h1]

theorem C24.Mono.foldl_le {P : MProb N F C} (hm : C24.Mono P) {A : Type} (g : A → C) (l : List A) (u : C)
    (h : ∀ a ∈ l, Le P (g a) u) : ∀ o, Le P o u → Le P (l.foldl (fun o a => P.ins o (g a)) o) u := by
  induction l with
  | nil => intro o ho; exact ho
  | cons a l ih =>
    intro o ho
    rw [List.foldl_cons]
    refine ih (fun b hb => h b (List.mem_cons_of_mem _ hb)) _ ?_
    rw [hm.ins_merge]
    exact hm.merge_le ho (h a (by simp))

theorem C24.Mono.le_foldl {P : MProb N F C} (hm : C24.Mono P) {A : Type} (g : A → C) (l : List A) :
    ∀ o, Le P o (l.foldl (fun o a => P.ins o (g a)) o) ∧ ∀ a ∈ l, Le P (g a) (l.foldl (fun o a => P.ins o (g a)) o) := by
  induction l with
  | nil => intro o; exact ⟨hm.idem o, by simp⟩
  | cons a l ih =>
    intro o
    rw [List.foldl_cons]
    obtain ⟨h1, h2⟩ := ih (P.ins o (g a))
    rw [hm.ins_merge] at h1 h2 ⊢
    refine ⟨hm.trans (hm.le_left _ _) h1, fun b hb => ?_⟩
    rcases List.mem_cons.1 hb with rfl | hb
    · exact hm.trans (hm.le_right _ _) h1
    · exact h2 b hb

/-- The return sites after the first loop of `processExit`. -/
theorem C24.ret_fold {P : MProb N F C} (hm : C24.Mono P) (heq : ∀ a b, P.equalTo a b = true ↔ a = b) (src dst : N)
    (y : Ctx N) (o : C) (rs : List N) : ∀ (s : St N F C),
    (∀ n z, (n = dst ∨ n ∈ rs) ∧ z = y ∨ val P (rs.foldl (retSite P src dst y o) s).an n z = val P s.an n z) ∧
    (∀ r c, (Le P c (val P s.an r y) ∧ (r = dst → Le P c o)) → Le P c (val P (rs.foldl (retSite P src dst y o) s).an r y)) ∧
    (∀ r ∈ rs, Le P o (val P (rs.foldl (retSite P src dst y o) s).an r y)) ∧
    (rs.foldl (retSite P src dst y o) s).wl = s.wl := by
  induction rs with
  | nil => intro s; exact ⟨fun n z => .inr rfl, fun r c h => h.1, by simp, rfl⟩
  | cons r rs ih =>
    intro s
    rw [List.foldl_cons]
    obtain ⟨i1, i2, i3, i4⟩ := ih (retSite P src dst y o s r)
    have hins : ∀ a b : C, Le P b (P.ins a b) := fun a b => by rw [hm.ins_merge]; exact hm.le_right _ _
    have hm2 : Le P (val P s.an r y) (P.ins (P.ins P.dflt (val P s.an r y)) o) := by
      refine hm.trans (hins P.dflt _) ?_
      rw [hm.ins_merge _ o]
      exact hm.le_left _ _
    have hself : Le P o (val P (retSite P src dst y o s r).an r y) := by
      rw [retSite_val]
      split
      · rename_i h
        rw [← (heq _ _).1 h]
        exact hm.idem o
      · rw [if_pos ⟨.inr rfl, rfl⟩]
        exact hins _ _
    have hkeep : ∀ n c, Le P c (val P s.an n y) → (n = dst → Le P c o) → Le P c (val P (retSite P src dst y o s r).an n y) := by
      intro n c h1 h2
      rw [retSite_val]
      split
      · exact h1
      · by_cases hn : n = dst
        · rw [if_pos ⟨.inl hn, rfl⟩]
          exact hm.trans (h2 hn) (hins _ _)
        · by_cases hr : n = r
          · subst hr
            rw [if_pos ⟨.inr rfl, rfl⟩]
            exact hm.trans h1 hm2
          · rw [if_neg (by simp [hn, hr])]
            exact h1
    refine ⟨fun n z => ?_, fun n c h => i2 n c ⟨hkeep n c h.1 h.2, h.2⟩, fun q hq => ?_, by rw [i4, retSite_wl]⟩
    · rcases i1 n z with ⟨h1, h2⟩ | h
      · refine .inl ⟨?_, h2⟩
        rcases h1 with h1 | h1
        · exact .inl h1
        · exact .inr (List.mem_cons_of_mem _ h1)
      · by_cases hh : (n = dst ∨ n = r) ∧ z = y
        · refine .inl ⟨?_, hh.2⟩
          rcases hh.1 with h1 | h1
          · exact .inl h1
          · exact .inr (by simp [h1])
        · refine .inr ?_
          rw [h, retSite_val, if_neg hh, ite_self]
    · rcases List.mem_cons.1 hq with rfl | hq
      · exact i2 q o ⟨hself, fun _ => hm.idem o⟩
      · exact i3 q hq

/-- C24, partial: processing the edge `(src, dst)` from an exit statement records, for every context of the exit statement,
the returned facts at the return sites of the context's most recent call site (of all callers, if the context is empty), in
the context without that call site. `hno`: the exit statement is not itself a return site. Missing: the facts are not
propagated from there, see `C24_return_not_propagated`. -/
theorem C24_exit_step_partial (P : MProb N F C) (hm : C24.Mono P) (heq : ∀ a b, P.equalTo a b = true ↔ a = b)
    (s : St N F C) (src dst : N) (hc : P.isCall src = false) (he : P.isExit src = true) (hd : dst ≠ src)
    (hno : ∀ c, src ∉ P.retSites c) :
    ∀ x ∈ ctxs s.an src, ∀ c, (x.getLast? = some c ∨ x = [] ∧ c ∈ P.callers (P.funOf src)) → ∀ r ∈ P.retSites c,
      Le P (P.returnFlow c (P.funOf src) src dst (val P s.an src x)) (val P (step P src dst s).an r x.dropLast) := by
  have h0 : step P src dst s = ((ctxs s.an src).foldl (exitCtx P src dst) (s, [])).1 := by simp [step, hc, he]
  have hsites : ∀ (x : Ctx N) c, (x.getLast? = some c ∨ x = [] ∧ c ∈ P.callers (P.funOf src)) → c ∈ sites P src x := by
    intro x c h
    unfold sites
    rcases h with h | ⟨rfl, h⟩
    · rw [h]; simp
    · simpa using h
  have key : ∀ (l done : List (Ctx N)) (so : St N F C × AMap (Ctx N) C),
      ((∀ x, val P so.1.an src x = val P s.an src x) ∧
       ∀ x ∈ done, ∀ c ∈ sites P src x,
        (∃ o, so.2.get (CallString.pop x).1 = some o ∧ Le P (P.returnFlow c (P.funOf src) src dst (val P s.an src x)) o) ∧
        ∀ r ∈ P.retSites c, Le P (P.returnFlow c (P.funOf src) src dst (val P s.an src x)) (val P so.1.an r (CallString.pop x).1)) →
      ∀ x ∈ done ++ l, ∀ c ∈ sites P src x, ∀ r ∈ P.retSites c,
        Le P (P.returnFlow c (P.funOf src) src dst (val P s.an src x))
          (val P (l.foldl (exitCtx P src dst) so).1.an r (CallString.pop x).1) := by
    intro l
    induction l with
    | nil =>
      intro done so h x hx c hcs r hr
      rw [List.append_nil] at hx
      exact (h.2 x hx c hcs).2 r hr
    | cons x l ih =>
      rintro done ⟨s1, out⟩ ⟨hv, hdone⟩
      rw [List.foldl_cons]
      have happ : done ++ x :: l = (done ++ [x]) ++ l := by simp
      rw [happ]
      apply ih
      rw [exitCtx_eq]
      simp only
      obtain ⟨f1, f2, f3, _⟩ := C24.ret_fold hm heq src dst (CallString.pop x).1 (exitOut P src dst s1.an out x)
        (dedup ((sites P src x).flatMap P.retSites)) s1
      have hout : ∀ c ∈ sites P src x,
          Le P (P.returnFlow c (P.funOf src) src dst (val P s.an src x)) (exitOut P src dst s1.an out x) := by
        intro c hcs
        have := (hm.le_foldl (fun c => P.returnFlow c (P.funOf src) src dst (val P s1.an src x)) (sites P src x)
          (match out.get (CallString.pop x).1 with
            | some c => c
            | none => P.dflt)).2 c hcs
        simp only [hv] at this
        unfold exitOut
        rw [hv]
        exact this
      have hold : ∀ o, out.get (CallString.pop x).1 = some o → Le P o (exitOut P src dst s1.an out x) := by
        intro o ho
        have := (hm.le_foldl (fun c => P.returnFlow c (P.funOf src) src dst (val P s1.an src x)) (sites P src x)
          (match out.get (CallString.pop x).1 with
            | some c => c
            | none => P.dflt)).1
        unfold exitOut
        rw [ho] at this ⊢
        exact this
      refine ⟨fun z => ?_, ?_⟩
      · rcases f1 src z with ⟨h | h, _⟩ | h
        · exact absurd h.symm hd
        · rw [mem_dedup, List.mem_flatMap] at h
          obtain ⟨c, _, h⟩ := h
          exact absurd h (hno c)
        · rw [h, hv]
      · intro z hz c hcs
        rw [List.mem_append, List.mem_singleton] at hz
        rcases hz with hz | rfl
        · obtain ⟨⟨o, ho, hle⟩, hrs⟩ := hdone z hz c hcs
          simp only at ho hrs
          constructor
          · rw [AMap.get_set]
            by_cases hy : (CallString.pop x).1 = (CallString.pop z).1
            · rw [if_pos hy]
              exact ⟨_, rfl, hm.trans hle (hold o (by rw [hy]; exact ho))⟩
            · rw [if_neg hy]
              exact ⟨o, ho, hle⟩
          · intro r hr
            by_cases hy : (CallString.pop z).1 = (CallString.pop x).1
            · rw [hy] at ho ⊢
              exact f2 r _ ⟨by rw [← hy]; exact hrs r hr, fun _ => hm.trans hle (hold o ho)⟩
            · rcases f1 r (CallString.pop z).1 with ⟨_, h⟩ | h
              · exact absurd h hy
              · rw [h]; exact hrs r hr
        · refine ⟨⟨_, AMap.get_set_self _ _ _, hout c hcs⟩, fun r hr => ?_⟩
          refine hm.trans (hout c hcs) (f3 r ?_)
          rw [mem_dedup, List.mem_flatMap]
          exact ⟨c, hcs, hr⟩
  intro x hx c hcx r hr
  have := key (ctxs s.an src) [] (s, []) ⟨fun _ => rfl, by simp⟩ x (by simpa using hx) c (hsites x c hcx) r hr
  rw [h0]
  rwa [CallString.pop_fst] at this

/-- `main: 5 → 0 (calls f) → 1 → 2`, `f: 3 → 4`: the fact is passed to statement 0, ... -/
example : val (C24.retProg 1) (step (C24.retProg 1) 5 0 (initSt (C24.retProg 1))).an 0 [] = true ∧
    (0, 1) ∈ (step (C24.retProg 1) 5 0 (initSt (C24.retProg 1))).wl := by
  have h := C24_normal_step_partial (C24.retProg 1) (by decide) _ .init 5 0 (by decide) (by decide)
  have h0 : val (C24.retProg 1) (step (C24.retProg 1) 5 0 (initSt (C24.retProg 1))).an 0 [] = true := by
    rw [h.1]; decide
  exact ⟨h0, (h.2.1 [] (by rw [h0]; decide)).2.1 1 (by decide)⟩

/-- ... from there to the start of `f` in the context `[0]`, ... -/
example : val (C24.retProg 1) (step (C24.retProg 1) 0 3 ⟨[], [(0, [([], true)])], [true], false⟩).an 3 [0] = true := by
  obtain ⟨x, hx, _, h⟩ := (C24_call_step_partial (C24.retProg 1) (by decide) ⟨[], [(0, [([], true)])], [true], false⟩ 0 3
    (by decide) (by decide) (by decide)).1 [] (by decide)
  have : x = [] := by simpa [ctxs, row, AMap.get] using hx
  subst this
  exact h

/-- ... and back to statement 1 in the empty context. -/
example : Le (C24.retProg 1) true
    (val (C24.retProg 1) (step (C24.retProg 1) 4 1 ⟨[], [(4, [([0], true)])], [true], false⟩).an 1 []) :=
  C24_exit_step_partial (C24.retProg 1) (C24.retProg_mono 1) (by decide) ⟨[], [(4, [([0], true)])], [true], false⟩ 4 1
    (by decide) (by decide) (by decide) (by decide) [0] (by decide) 0 (.inl rfl) 1 (by decide)

/-- The call-to-return edge of the same program drops the fact. -/
example : val (C24.retProg 1) (step (C24.retProg 1) 0 1 (step (C24.retProg 1) 0 1 (initSt (C24.retProg 1)))).an 1 [] = false := by
  decide

/-! ### No more facts than some solution -/

/-- Specification: the edges that may get into the worklist: intra-procedural ones, from a call site to the start points of
its callees, from the exit statements of a callee to the return sites of the call, and from an exit statement to the successors
of the callers of its function. -/
inductive C24.WEdge (P : MProb N F C) : N → N → Prop
  | intra {s d : N} {f : F} : (s, d) ∈ P.edgesOf f → WEdge P s d
  | succ {s d : N} : d ∈ P.succs s → WEdge P s d
  | call {s d : N} {f : F} : P.isCall s = true → f ∈ P.callees s → d ∈ P.starts f → WEdge P s d
  | ret {s d c : N} {f : F} : P.isCall c = true → f ∈ P.callees c → s ∈ P.exits f → d ∈ P.retSites c → WEdge P s d
  | exit {s d c : N} : P.isExit s = true → c ∈ P.callers (P.funOf s) → d ∈ P.succs c → WEdge P s d

/-- Specification: the call sites a context may return to. -/
def C24.Site (P : MProb N F C) (e : N) (x : Ctx N) (c : N) : Prop :=
  x.getLast? = some c ∨ x = [] ∧ c ∈ P.callers (P.funOf e)

/-- Specification: `X` solves the data-flow inequalities along these edges. `merge` and `leak` are needed because of what
the code does beyond the flow functions: at a branch target it applies the normal flow to all predecessors, also to call
sites, and at an exit statement it writes the facts of the return site also to the target of the edge. -/
structure C24.Bounds (P : MProb N F C) (X : N → Ctx N → C) : Prop where
  top : ∀ n, Le P P.allTop (X n [])
  seed : ∀ n c, (n, c) ∈ P.seeds → Le P c (X n [])
  normal : ∀ s d x, P.isCall s = false → P.isExit s = false → C24.WEdge P s d → Le P (P.normalFlow s (X s x)) (X d x)
  merge : ∀ s d p x, P.isCall s = false → P.isExit s = false → C24.WEdge P s d → P.branchTarget s d = true →
    p ∈ P.preds d → Le P (P.normalFlow p (X p x)) (X d x)
  call : ∀ s d x, P.isCall s = true → C24.WEdge P s d → P.funOf s ≠ P.funOf d →
    Le P (P.callFlow s (P.funOf d) (X s x)) (X d (CallString.push P.K x s))
  ctr : ∀ s d x, P.isCall s = true → C24.WEdge P s d → P.funOf s = P.funOf d →
    Le P (P.ctrFlow s d (P.callees s) (X s x)) (X d x)
  ret : ∀ s d x x' c c' r, P.isCall s = false → P.isExit s = true → C24.WEdge P s d → C24.Site P s x c → C24.Site P s x' c' →
    x'.dropLast = x.dropLast → r ∈ P.retSites c' →
    Le P (P.returnFlow c (P.funOf s) s d (X s x)) (X r x.dropLast)
  leak : ∀ s d x c r, P.isCall s = false → P.isExit s = true → C24.WEdge P s d → C24.Site P s x c → r ∈ P.retSites c →
    Le P (X r x.dropLast) (X d x.dropLast)

theorem C24.mem_sites {P : MProb N F C} {e : N} {x : Ctx N} {c : N} : c ∈ sites P e x ↔ C24.Site P e x c := by
  unfold sites C24.Site
  rcases List.eq_nil_or_concat x with rfl | ⟨x', a, rfl⟩
  · simp
  · rw [List.concat_eq_append, List.getLast?_append]
    simp only [List.getLast?_singleton, Option.some_or, List.mem_singleton, Option.some.injEq, List.append_eq_nil_iff,
      List.cons_ne_self, and_false, false_and, or_false, reduceCtorEq]
    exact eq_comm

structure C24.J (P : MProb N F C) (X : N → Ctx N → C) (s : St N F C) : Prop where
  wl : ∀ e ∈ s.wl, C24.WEdge P e.1 e.2
  le : ∀ n x, Le P (val P s.an n x) (X n x)

section Below
variable {P : MProb N F C} (hm : C24.Mono P) {X : N → Ctx N → C}
include hm

theorem C24.le_put {A : An N C} (h : ∀ n x, Le P (val P A n x) (X n x)) (n : N) (x : Ctx N) (c : C) (hc : Le P c (X n x)) :
    ∀ m y, Le P (val P (put A n x c) m y) (X m y) := by
  intro m y
  rw [val_put]
  split
  · rename_i e; rw [e.1, e.2]; exact hc
  · exact h m y

theorem C24.le_initEdges (hX : C24.Bounds P X) {A : An N C} (h : ∀ n x, Le P (val P A n x) (X n x)) (es : List (N × N)) :
    ∀ m y, Le P (val P (initEdges P A es) m y) (X m y) := by
  intro m y
  rcases val_initEdges P A es m y with e | ⟨e1, e2⟩
  · rw [e]; exact h m y
  · rw [e2, e1]; exact hX.top m

theorem C24.update_below {src dst : N} {x : Ctx N} {o : C} {s : St N F C} (hs : C24.J P X s) (hw : C24.WEdge P src dst)
    (ho : Le P o (X dst x)) : C24.J P X (update P src dst x o s) := by
  refine ⟨fun e he => ?_, ?_⟩
  · rcases update_wl he with he | he
    · exact hs.wl e he
    · simp only [pushed, List.mem_cons, List.mem_append, List.mem_map] at he
      rcases he with rfl | (⟨n, hn, rfl⟩ | he) | he
      · exact hw
      · exact .succ hn
      · split at he
        · rename_i hc
          simp only [List.mem_flatMap, List.mem_map] at he
          obtain ⟨f, hf, n, hn, rfl⟩ := he
          exact .call hc hf hn
        · cases he
      · split at he
        · rename_i hc
          simp only [List.mem_flatMap, List.mem_map] at he
          obtain ⟨c, hf, n, hn, rfl⟩ := he
          exact .exit hc hf hn
        · cases he
  · unfold update
    simp only
    split
    · intro n y
      show Le P (val P (touch P s.an dst x) n y) _
      rw [val_touch]
      exact hs.le n y
    · exact C24.le_put hm hs.le dst x o ho

theorem C24.addCallees_below (hX : C24.Bounds P X) {src : N} (hc : P.isCall src = true) (fs : List F) :
    ∀ {s : St N F C}, (∀ f ∈ fs, f ∈ P.callees src) → C24.J P X s → C24.J P X (addCallees P src fs s) := by
  induction fs with
  | nil => intro s _ h; exact h
  | cons f fs ih =>
    intro s hfs h
    unfold addCallees
    split
    · exact h
    · refine ih (fun g hg => hfs g (List.mem_cons_of_mem _ hg)) ⟨fun e he => ?_, C24.le_initEdges hm hX h.le _⟩
      have hf := hfs f (by simp)
      simp only [List.mem_append, List.mem_map, List.mem_flatMap] at he
      rcases he with (he | he | ⟨n, hn, rfl⟩) | ⟨e', he', r, hr, rfl⟩
      · exact .intra (f := f) he
      · exact h.wl e he
      · exact .call hc hf hn
      · exact .ret hc hf he' hr

theorem C24.retSite_below {src dst : N} {y : Ctx N} {o : C} {s : St N F C} (r : N) (hs : C24.J P X s)
    (ho : Le P o (X r y)) (hl : Le P (X r y) (X dst y)) : C24.J P X (retSite P src dst y o s r) := by
  refine ⟨fun e he => hs.wl e (by rwa [retSite_wl] at he), fun n z => ?_⟩
  rw [retSite_val]
  split
  · exact hs.le n z
  · split
    · rename_i e
      have hle : Le P (P.ins (P.ins P.dflt (val P s.an r y)) o) (X r y) := by
        rw [hm.ins_merge, hm.ins_merge]
        exact hm.merge_le (hm.merge_le (hm.dflt_least _) (hs.le r y)) ho
      rw [e.2]
      rcases e.1 with e | e
      · rw [e]; exact hm.trans hle hl
      · rw [e]; exact hle
    · exact hs.le n z

theorem C24.step_below (hX : C24.Bounds P X) {src dst : N} {s : St N F C} (hs : C24.J P X s) (hw : C24.WEdge P src dst) :
    C24.J P X (step P src dst s) := by
  unfold step
  by_cases hc : P.isCall src = true
  · rw [if_pos hc]
    have h1 := C24.addCallees_below hm hX hc (P.callees src) (fun _ h => h) hs
    simp only
    split
    · rename_i hf
      exact foldl_ind (C24.J P X) _ _ (fun s hs x _ => C24.update_below hm hs hw
        (hm.trans (hm.ctr _ _ _ _ _ (hs.le src x)) (hX.ctr src dst x hc hw hf))) _ h1
    · rename_i hf
      exact foldl_ind (C24.J P X) _ _ (fun s hs x _ => C24.update_below hm hs hw
        (hm.trans (hm.call _ _ _ _ (hs.le src x)) (hX.call src dst x hc hw hf))) _ h1
  · rw [if_neg hc]
    have hc' : P.isCall src = false := by simpa using hc
    by_cases he : P.isExit src = true
    · rw [if_pos he]
      refine (foldl_ind (fun (so : St N F C × AMap (Ctx N) C) => C24.J P X so.1 ∧ ∀ y o, so.2.get y = some o →
        ∀ x', x'.dropLast = y → ∀ c', C24.Site P src x' c' → ∀ r ∈ P.retSites c', Le P o (X r y)) _ _ ?_ (s, []) ⟨hs, ?_⟩).1
      · rintro ⟨s, out⟩ ⟨hs, ho⟩ x _
        rw [exitCtx_eq, CallString.pop_fst]
        simp only at hs ho ⊢
        have hout : ∀ x', x'.dropLast = x.dropLast → ∀ c', C24.Site P src x' c' → ∀ r ∈ P.retSites c',
            Le P (exitOut P src dst s.an out x) (X r x.dropLast) := by
          intro x' hx' c' hc2 r hr
          unfold exitOut
          apply hm.foldl_le
          · intro c hcs
            exact hm.trans (hm.ret _ _ _ _ _ _ (hs.le src x))
              (hX.ret src dst x x' c c' r hc' he hw (C24.mem_sites.1 hcs) hc2 hx' hr)
          · rw [CallString.pop_fst]
            cases hg : out.get x.dropLast with
            | none => exact hm.dflt_least _
            | some o => exact ho _ _ hg x' hx' c' hc2 r hr
        constructor
        · refine foldl_ind (C24.J P X) _ _ (fun s hs r hr => ?_) _ hs
          rw [mem_dedup, List.mem_flatMap] at hr
          obtain ⟨c, hcs, hr⟩ := hr
          exact C24.retSite_below hm r hs (hout x rfl c (C24.mem_sites.1 hcs) r hr)
            (hX.leak src dst x c r hc' he hw (C24.mem_sites.1 hcs) hr)
        · intro y o hg x' hx' c' hc2 r hr
          rw [AMap.get_set] at hg
          split at hg
          · rename_i e
            cases hg
            subst e
            exact hout x' hx' c' hc2 r hr
          · exact ho y o hg x' hx' c' hc2 r hr
      · intro y o h; cases h
    · rw [if_neg he]
      have he' : P.isExit src = false := by simpa using he
      refine foldl_ind (C24.J P X) _ _ (fun s hs x _ => ?_) _ hs
      obtain ⟨A, h1, h2, _⟩ := normalCtx_eq P src dst s x
      rw [h1]
      refine C24.update_below hm ⟨hs.wl, fun n y => by rw [h2]; exact hs.le n y⟩ hw ?_
      unfold normalOut
      have h0 : Le P (P.normalFlow src (val P s.an src x)) (X dst x) :=
        hm.trans (hm.normal _ _ _ (hs.le src x)) (hX.normal src dst x hc' he' hw)
      split
      · rename_i hb
        have : (fun (o : C) p => P.merge o (P.normalFlow p (val P s.an p x))) =
            (fun (o : C) p => P.ins o (P.normalFlow p (val P s.an p x))) := by
          funext o p; rw [hm.ins_merge]
        rw [this]
        refine hm.foldl_le _ _ _ (fun p hp => ?_) _ h0
        exact hm.trans (hm.normal _ _ _ (hs.le p x)) (hX.merge src dst p x hc' he' hw hb (List.mem_filter.1 hp |>.1))
      · exact h0

theorem C24.init_below (hX : C24.Bounds P X) : C24.J P X (initSt P) := by
  unfold initSt
  refine foldl_ind (C24.J P X) _ _ (fun s hs x hx => ⟨fun e he => ?_, ?_⟩) _ ⟨by simp, fun n x => hm.dflt_least _⟩
  · rcases List.mem_append.1 he with he | he
    · exact .intra he
    · exact hs.wl e he
  · have h1 := C24.le_initEdges hm hX hs.le (P.edgesOf (P.funOf x.1))
    apply C24.le_put hm h1
    rw [hm.ins_merge]
    exact hm.merge_le (h1 _ _) (hX.seed x.1 x.2 hx)

end Below

/-- C24, partial, the converse direction: no state of a run of `solve()` holds a fact that is not in every solution `X` of
the inequalities; in particular `getResultsAt` does not report one. Missing: `X` has to solve more than the data-flow
inequalities, see `C24.Bounds`. -/
theorem C24_below_partial (P : MProb N F C) (hm : C24.Mono P) (X : N → Ctx N → C) (hX : C24.Bounds P X) (s : St N F C)
    (hr : Reached P s) (n : N) :
    (∀ x, Le P (val P s.an n x) (X n x)) ∧ ∀ u, (∀ x, Le P (X n x) u) → Le P (getResultsAt P s.an n) u := by
  have hJ : C24.J P X s := by
    induction hr with
    | init => exact C24.init_below hm hX
    | @step e wl A f u _ ih =>
      exact C24.step_below hm hX (s := ⟨wl, A, f, u⟩) ⟨fun e he => ih.wl e (List.mem_cons_of_mem _ he), ih.le⟩
        (ih.wl e (by simp))
  refine ⟨hJ.le n, fun u hu => ?_⟩
  unfold getResultsAt
  have hd := reached_distinct hr n
  refine hm.foldl_le (fun x : Ctx N × C => x.2) _ _ (fun x hx => ?_) _ (hm.dflt_least _)
  have := hJ.le n x.1
  unfold val at this
  rw [AMap.get_of_mem hd hx] at this
  exact hm.trans this (hu x.1)

/-- The same for the result of `solve()`. -/
theorem C24_solve_below_partial (P : MProb N F C) (hm : C24.Mono P) (X : N → Ctx N → C) (hX : C24.Bounds P X) (k : Nat)
    (A : An N C) (h : solve P k = some A) (n : N) (u : C) (hu : ∀ x, Le P (X n x) u) : Le P (getResultsAt P A n) u := by
  unfold solve at h
  cases hl : loop P k (initSt P) with
  | none => rw [hl] at h; cases h
  | some t =>
    rw [hl] at h
    cases h
    exact (C24_below_partial P hm X hX t (loop_reached k .init hl).1 n).2 u hu

/-- The same program if `f` drops the fact: ... -/
def C24.dropProg : MProb (Fin 6) Bool Bool := { C24.retProg 1 with callFlow := fun _ _ _ => false }

theorem C24.dropProg_edge {s d : Fin 6} (h : C24.WEdge C24.dropProg s d) :
    (s, d) ∈ [((5 : Fin 6), (0 : Fin 6)), (0, 1), (1, 2), (3, 4), (0, 3), (4, 1)] := by
  cases h with
  | @intra f h => revert s d f; decide
  | succ h => revert s d; decide
  | @call f h1 h2 h3 => revert s d f; decide
  | @ret c f h1 h2 h3 h4 => revert s d c f; decide
  | @exit c h1 h2 h3 => revert s d c; decide

/-- ... then no run reports it in `f` or after the call. -/
example (k : Nat) (A : An (Fin 6) Bool) (h : solve C24.dropProg k = some A) (n : Fin 6) (hn : n ≠ 5 ∧ n ≠ 0) :
    getResultsAt C24.dropProg A n = false := by
  have hm : C24.Mono C24.dropProg := by
    constructor <;> simp [Le, C24.dropProg, C24.retProg] <;> decide
  have hX : C24.Bounds C24.dropProg (fun n _ => n = 5 ∨ n = 0) := by
    refine ⟨by decide, by simp [C24.dropProg, C24.retProg, Le], ?_, ?_, ?_, ?_, ?_, ?_⟩
    · intro s d x h1 h2 h
      have := C24.dropProg_edge h
      clear h x; revert s d; decide
    · intro s d p x _ _ _ h
      cases h
    · intro s d x h1 h h2; rfl
    · intro s d x h1 h h2; rfl
    · intro s d x x' c c' r h1 h2 h h3 h4 _ _
      have := C24.dropProg_edge h
      have : s = 4 := by clear h h3 h4; revert s d; decide
      subst this
      rfl
    · intro s d x c r h1 h2 h h3 h4
      have : r = 1 := by clear h3; revert c r; decide
      subst this
      rfl
  have := C24_solve_below_partial C24.dropProg hm _ hX k A h n false (by
    intro x
    obtain ⟨h1, h2⟩ := hn
    simp [h1, h2, Le, C24.dropProg, C24.retProg])
  simpa [Le, C24.dropProg, C24.retProg] using this

/-- `main: 0 (calls f) → 1 (calls f) → 2` and `f: 3 → 4`. The fact is passed into `f` by the first call only. -/
def C24.leakProg : MProb (Fin 5) Bool Bool where
  K := 1
  funOf n := n = 3 ∨ n = 4
  edgesOf f := if f then [(3, 4)] else [(0, 1), (1, 2)]
  isCall n := n = 0 ∨ n = 1
  isExit n := n = 2 ∨ n = 4
  callees n := if n = 0 ∨ n = 1 then [true] else []
  starts f := if f then [3] else [0]
  exits f := if f then [4] else [2]
  retSites n := if n = 0 then [1] else if n = 1 then [2] else []
  callers f := if f then [1, 0] else []
  succs n := if n = 0 then [1] else if n = 1 then [2] else if n = 3 then [4] else []
  preds n := if n = 1 then [0] else if n = 2 then [1] else if n = 4 then [3] else []
  branchTarget _ _ := false
  normalFlow _ c := c
  callFlow n _ c := n = 0 && c
  returnFlow _ _ _ _ c := c
  ctrFlow _ _ _ _ := false
  merge a b := a || b
  equalTo a b := a == b
  allTop := false
  dflt := false
  ins a b := a || b
  seeds := [(0, true)]

/-- The solver is not context-sensitive even where the call strings suffice: `processExit` also writes the facts of a return
site to the target of the edge it processes, which may be a return site of another call. Here the fact returns to statement 1
only, and `solve()` reports it at statement 2. -/
theorem C24_return_leaks :
    C24.Mono C24.leakProg ∧ (∀ st c, Reach C24.leakProg 2 st c → c = false) ∧
    ∃ A, solve C24.leakProg 60 = some A ∧ getResultsAt C24.leakProg A 2 = true := by
  refine ⟨by constructor <;> simp [Le, C24.leakProg] <;> decide, ?_, C24.of_any (by decide +kernel)⟩
  have key : ∀ n st c, Reach C24.leakProg n st c →
      (n = 2 → c = false) ∧ ((n = 3 ∨ n = 4) → st = [1] → c = false) ∧ (¬ (n = 3 ∨ n = 4) → st = []) ∧
      ((n = 3 ∨ n = 4) → st = [0] ∨ st = [1]) := by
    intro n st c h
    induction h with
    | @seed n c h =>
      have : n = 0 := by simp [C24.leakProg] at h; exact h.1
      subst this
      simp
    | @normal n d st c hr h1 h2 h3 ih =>
      have : n = 3 ∧ d = 4 := by clear ih hr; revert n d; decide
      obtain ⟨rfl, rfl⟩ := this
      exact ⟨fun h => absurd h (by decide), fun _ => ih.2.1 (.inl rfl), fun h => absurd (.inr rfl) h, fun _ => ih.2.2.2 (.inl rfl)⟩
    | @call n f s st c hr h1 h2 h3 ih =>
      have hn : n = 0 ∨ n = 1 := by clear ih h2 h3 hr; revert n; decide
      have hs : s = 3 := by clear ih hr hn; revert n f s; decide
      subst hs
      have hst : st = [] := ih.2.2.1 (by rcases hn with rfl | rfl <;> decide)
      subst hst
      rcases hn with rfl | rfl
      · simp
      · simp [C24.leakProg]
    | @ctr n d st c hr h1 h2 ih =>
      have hn : ¬ (n = 3 ∨ n = 4) ∧ ¬ (d = 3 ∨ d = 4) := by clear ih hr; revert n d; decide
      exact ⟨fun _ => rfl, fun h => absurd h hn.2, fun _ => ih.2.2.1 hn.1, fun h => absurd h hn.2⟩
    | @ret e n r st c hr h1 h2 ih =>
      have he : e = 4 := by
        have he : e = 2 ∨ e = 4 := by clear ih h2 hr; revert e; decide
        rcases he with rfl | rfl
        · have := ih.2.2.1 (by decide); simp at this
        · rfl
      subst he
      have hr' : ¬ (r = 3 ∨ r = 4) := by clear ih hr; revert n r; decide
      rcases ih.2.2.2 (.inr rfl) with h | h
      · have hs : st = [] ∧ n = 0 := by
          obtain ⟨h3, h4⟩ := List.append_inj' (h.trans (List.nil_append [0]).symm) rfl
          exact ⟨h3, by simpa using h4⟩
        obtain ⟨rfl, rfl⟩ := hs
        have : r = 1 := by clear ih h; revert r; decide
        subst this
        simp
      · have hs : st = [] ∧ n = 1 := by
          obtain ⟨h3, h4⟩ := List.append_inj' (h.trans (List.nil_append [1]).symm) rfl
          exact ⟨h3, by simpa using h4⟩
        obtain ⟨rfl, rfl⟩ := hs
        have hc := ih.2.1 (.inr rfl) h
        exact ⟨fun _ => hc, fun h => absurd h hr', fun _ => rfl, fun h => absurd h hr'⟩
  intro st c h
  exact (key 2 st c h).1 rfl

end Phasar
