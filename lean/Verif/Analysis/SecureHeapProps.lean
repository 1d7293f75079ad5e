import Verif.Analysis.SecureHeapSim
/-!
# C73: what the secure heap propagation reports
-/
set_option linter.unusedSectionVars false
namespace Phasar.SecureHeap
open Phasar JoinLat IDE Prog

variable {p : Prog} {c : EFCfg Empty Value} {lt : Edge → Edge → Bool}

/-! ## From runs to results -/

theorem C73.run (wf : p.WF) (hdir : p.DirectOnly) {n : Nat} {d : Fact} {v : Value} (h : RunVal (p.problem c lt) n d v) :
    ∃ tr, p.Exec true n tr ∧ Tells d v tr := by
  obtain ⟨n0, d0, v0, stk, h0, hr⟩ := h
  obtain ⟨⟨f, hf, hn⟩, rfl, rfl⟩ := (isSeed_iff c lt).1 h0
  obtain ⟨tr, ht, hd⟩ := exec_of_run c lt wf hdir hr
  exact ⟨tr, ⟨f, hf, n0, hn, stk, ht⟩, hd⟩

theorem C73.exec (wf : p.WF) (hdir : p.DirectOnly) {skip : Bool} {n : Nat} {tr : List Ev} (h : p.Exec skip n tr) :
    RunVal (p.problem c lt) n .zero .bot ∧ (Ev.init ∈ tr → ∃ v, RunVal (p.problem c lt) n .initialized v) ∧
    (ShutAfterInit tr → RunVal (p.problem c lt) n .initialized .bot) := by
  obtain ⟨f, hf, sp, hsp, stk, hr⟩ := h
  have hF := run_of_exec c lt wf hdir hr
  have h0 : IsSeed (p.problem c lt) sp .zero .bot := (isSeed_iff c lt).2 ⟨⟨f, hf, hsp⟩, rfl, rfl⟩
  refine ⟨⟨_, _, _, stk, h0, hF.zero⟩, fun hi => ?_, fun hs => ⟨_, _, _, stk, h0, hF.shut hs⟩⟩
  obtain ⟨v, hv⟩ := hF.init hi
  exact ⟨v, _, _, _, stk, h0, hv⟩

theorem C73.above (wf : p.WF) {st : St Nat Fact Edge} {w : VS Nat Fact Value} (h : Solved (p.problem c lt) st w) {n : Nat}
    {d : Fact} {v : Value} (hr : RunVal (p.problem c lt) n d v) : ∃ l, resultAt w n d = some l ∧ v ⊑ l :=
  C02_sound (alg_small c lt) (okEdges c lt) wf.icf (noTop c lt) (seedsAtStart c lt wf) h n d v hr

theorem C73.lub (wf : p.WF) {st : St Nat Fact Edge} {w : VS Nat Fact Value} (h : Solved (p.problem c lt) st w) {n : Nat}
    {d : Fact} {l : Value} (hl : resultAt w n d = some l) :
    (∃ v, RunVal (p.problem c lt) n d v) ∧ IsLub (RunVal (p.problem c lt) n d) l :=
  ⟨solved_facts wf.icf wf.uniq rfl (seedsAtStart c lt wf) (noSummary c lt) h ⟨l, hl⟩,
   C03_lub_for (alg_small c lt).toFor (okEdges c lt).toFor (noTop c lt).toFor (alg_between c lt) (okEdgesFor c lt) wf.icf wf.uniq rfl
    (seedsAtStart c lt wf) (noSummary c lt) h n d l hl⟩

theorem C73.bot_le {l : Value} (h : Value.bot ⊑ l) : l = .bot := by
  cases l
  · exact absurd h (by decide)
  · exact absurd h (by decide)
  · rfl

/-! ## The theorems -/

/-- C73: nothing is reported about the heap at a statement exactly if no execution that arrives there has initialised it;
"initialised" is reported exactly if some execution has initialised it and none has shut it down afterwards; the bottom value is
reported exactly if some execution has shut it down after initialising it. Executions may step over calls of functions with a
body here (`C73_sound` speaks about those that do not, and `C73_noreturn_false` shows the difference). -/
theorem C73_exact (wf : p.WF) (hdir : p.DirectOnly) {st : St Nat Fact Edge} {w : VS Nat Fact Value}
    (h : Solved (p.problem c lt) st w) (n : Nat) :
    (resultAt w n .initialized = none ↔ ∀ tr, p.Exec true n tr → Ev.init ∉ tr) ∧
    (resultAt w n .initialized = some .initialized ↔
      (∃ tr, p.Exec true n tr ∧ Ev.init ∈ tr) ∧ ∀ tr, p.Exec true n tr → ¬ ShutAfterInit tr) ∧
    (resultAt w n .initialized = some .bot ↔ ∃ tr, p.Exec true n tr ∧ ShutAfterInit tr) ∧
    resultAt w n .initialized ≠ some .top := by
  have some_iff : (∃ l, resultAt w n .initialized = some l) ↔ ∃ tr, p.Exec true n tr ∧ Ev.init ∈ tr := by
    constructor
    · rintro ⟨l, hl⟩
      obtain ⟨v, hv⟩ := (C73.lub wf h hl).1
      obtain ⟨tr, ht, hi, _⟩ := C73.run wf hdir hv
      exact ⟨tr, ht, hi⟩
    · rintro ⟨tr, ht, hi⟩
      obtain ⟨v, hv⟩ := (C73.exec (c := c) (lt := lt) wf hdir ht).2.1 hi
      obtain ⟨l, hl, _⟩ := C73.above wf h hv
      exact ⟨l, hl⟩
  have bot_of : (∃ tr, p.Exec true n tr ∧ ShutAfterInit tr) → resultAt w n .initialized = some .bot := by
    rintro ⟨tr, ht, hs⟩
    obtain ⟨l, hl, hle⟩ := C73.above wf h ((C73.exec (c := c) (lt := lt) wf hdir ht).2.2 hs)
    rw [hl, C73.bot_le hle]
  have of_bot : ¬ (∃ tr, p.Exec true n tr ∧ ShutAfterInit tr) → ∀ l, resultAt w n .initialized = some l → l = .initialized := by
    intro hno l hl
    obtain ⟨⟨v, hv⟩, hub, hleast⟩ := C73.lub wf h hl
    have hall : ∀ x, RunVal (p.problem c lt) n .initialized x → x = .initialized := by
      intro x hx
      obtain ⟨tr, ht, _, hx⟩ := C73.run wf hdir hx
      rcases hx with hx | ⟨_, hs⟩
      · exact hx
      · exact absurd ⟨tr, ht, hs⟩ hno
    have h1 := hub _ hv
    rw [hall _ hv] at h1
    have h2 := hleast Value.initialized (fun x hx => by rw [hall _ hx]; exact le_refl _)
    cases l
    · exact absurd h1 (by decide)
    · rfl
    · exact absurd h2 (by decide)
  refine ⟨?_, ?_, ?_, ?_⟩
  · rw [Option.eq_none_iff_forall_ne_some]
    constructor
    · intro hn tr ht hi
      obtain ⟨l, hl⟩ := some_iff.2 ⟨tr, ht, hi⟩
      exact hn l hl
    · intro hn l hl
      obtain ⟨tr, ht, hi⟩ := some_iff.1 ⟨l, hl⟩
      exact hn tr ht hi
  · constructor
    · intro hl
      refine ⟨some_iff.1 ⟨_, hl⟩, fun tr ht hs => ?_⟩
      rw [bot_of ⟨tr, ht, hs⟩] at hl
      cases hl
    · rintro ⟨h1, h2⟩
      obtain ⟨l, hl⟩ := some_iff.2 h1
      rw [hl, of_bot (fun ⟨tr, ht, hs⟩ => h2 tr ht hs) l hl]
  · refine ⟨fun hl => Classical.byContradiction fun hno => ?_, bot_of⟩
    have := of_bot hno _ hl
    cases this
  · intro hl
    by_cases hex : ∃ tr, p.Exec true n tr ∧ ShutAfterInit tr
    · rw [bot_of hex] at hl; cases hl
    · have := of_bot hex _ hl
      cases this

/-- C73 for executions proper: where the heap has been initialised something is reported, and where it is shut down the bottom
value is reported. So where "initialised" is reported, the heap is not shut down in any execution; and where nothing is
reported it has not been initialised in any. -/
theorem C73_sound (wf : p.WF) (hdir : p.DirectOnly) {st : St Nat Fact Edge} {w : VS Nat Fact Value}
    (h : Solved (p.problem c lt) st w) {n : Nat} {tr : List Ev} (ht : p.Exec false n tr) :
    (heap tr ≠ .never → resultAt w n .initialized = some .initialized ∨ resultAt w n .initialized = some .bot) ∧
    (heap tr = .down → resultAt w n .initialized = some .bot) ∧
    resultAt w n .zero = some .bot := by
  have ht' : p.Exec true n tr := by
    obtain ⟨f, hf, sp, hsp, stk, hr⟩ := ht
    exact ⟨f, hf, sp, hsp, stk, Steps.weaken hr⟩
  obtain ⟨e1, e2, e3, e4⟩ := C73_exact wf hdir h n
  refine ⟨fun hh => ?_, fun hh => e3.2 ⟨tr, ht', (heap_past tr).2 hh⟩, ?_⟩
  · have hi : Ev.init ∈ tr := Classical.byContradiction fun hno => hh ((heap_past tr).1.2 hno)
    cases hr : resultAt w n .initialized with
    | none => exact absurd hi (e1.1 hr tr ht')
    | some l =>
      cases l
      · exact absurd hr e4
      · exact .inl rfl
      · exact .inr rfl
  · obtain ⟨l, hl, hle⟩ := C73.above wf h (C73.exec (c := c) (lt := lt) wf hdir ht').1
    rw [hl, C73.bot_le hle]

/-- The result does not depend on the order in which the solver works, on the size bound for joined edge functions, on how
constants are stored, or on the addresses of edge functions. -/
theorem C73_order (wf : p.WF) (hdir : p.DirectOnly) {c' : EFCfg Empty Value} {lt' : Edge → Edge → Bool}
    {st st' : St Nat Fact Edge} {w w' : VS Nat Fact Value}
    (h : Solved (p.problem c lt) st w) (h' : Solved (p.problem c' lt') st' w') (n : Nat) :
    resultAt w n .initialized = resultAt w' n .initialized := by
  obtain ⟨e1, e2, e3, e4⟩ := C73_exact wf hdir h n
  obtain ⟨e1', e2', e3', e4'⟩ := C73_exact wf hdir h' n
  cases hr : resultAt w n .initialized with
  | none => exact ((e1'.2 (e1.1 hr))).symm
  | some l =>
    cases l
    · exact absurd hr e4
    · exact (e2'.2 (e2.1 hr)).symm
    · exact (e3'.2 (e3.1 hr)).symm

/-- Finitely many statements are reachable: `S` contains the starts of the entry points and is closed under the steps. -/
structure Prog.Bounded (p : Prog) (S : List Nat) : Prop where
  entry : ∀ f ∈ p.entries, ∀ sp ∈ p.icf.starts f, sp ∈ S
  succ : ∀ n ∈ S, ∀ n' ∈ p.icf.succs n, n' ∈ S
  ret : ∀ n ∈ S, ∀ r ∈ p.icf.retSites n, r ∈ S
  call : ∀ n ∈ S, ∀ g ∈ p.icf.callees n, ∀ sp ∈ p.icf.starts g, sp ∈ S

/-- The solver terminates on programs with finitely many statements. -/
theorem C73_terminates (wf : p.WF) {S : List Nat} (hb : p.Bounded S) :
    ∃ fuel st w, solve (p.problem c lt) fuel = some (st, w) := by
  refine (C05_terminates_reachable (alg_small c lt).okClosed (okEdges c lt) wf.icf wf.uniq rfl (seedsAtStart c lt wf)
    (noSummary c lt) (alg_finite c lt) value_finite (S.flatMap fun n => [(n, Fact.zero), (n, Fact.initialized)]) ?_).2.2
  intro n d hr
  obtain ⟨v, n0, d0, v0, stk, h0, hr⟩ := factReachable_iff.2 hr
  obtain ⟨⟨f, hf, hn⟩, _⟩ := (isSeed_iff c lt).1 h0
  have key : ∀ a : Cfg Nat Fact Value, RSteps (p.problem c lt) ⟨[], n0, d0, v0⟩ a → a.n ∈ S ∧ ∀ x ∈ a.stk, x ∈ S := by
    intro a ha
    induction ha with
    | refl => exact ⟨hb.entry f hf _ hn, fun x hx => by simp at hx⟩
    | tail _ h2 ih =>
      cases h2 with
      | normal _ h4 _ => exact ⟨hb.succ _ ih.1 _ h4, ih.2⟩
      | call _ h4 _ h5 _ =>
        exact ⟨hb.call _ ih.1 _ h4 _ h5, fun x hx => by
          rcases List.mem_cons.1 hx with rfl | hx
          · exact ih.1
          · exact ih.2 _ hx⟩
      | ret _ _ h5 _ => exact ⟨hb.ret _ (ih.2 _ List.mem_cons_self) _ h5, fun x hx => ih.2 _ (List.mem_cons_of_mem _ hx)⟩
      | callToRet _ h4 _ => exact ⟨hb.ret _ ih.1 _ h4, ih.2⟩
      | summary _ _ h => cases h
  refine List.mem_flatMap.2 ⟨n, (key _ hr).1, ?_⟩
  cases d <;> simp

/-! ## Examples and counterexamples

Function 0 is `main`; functions 1 and 2 are the initialisation and the shutdown, which have no body. -/

/-- The names of the functions in the examples. -/
def C73.names (f : Nat) : String :=
  if f = 1 then initializerFn else if f = 2 then shutdownFn else "f"

/-- A program given by a table, with its direct calls. -/
def C73.prog (rows : List Row) (direct : List (Nat × Nat)) : Prog where
  icf := tabICFG rows
  direct := fun n => (direct.find? fun x => x.1 == n).map (·.2)
  name := C73.names
  entries := [0]

/-- The table is consistent and the direct calls agree with it. -/
def C73.ok (rows : List Row) (direct : List (Nat × Nat)) : Bool :=
  tabOk rows && direct.all (fun x => (tabICFG rows).callees x.1 == [x.2]) &&
    (tabStarts rows 1).isEmpty && (tabStarts rows 2).isEmpty

/-- All calls of the initialisation and the shutdown are direct. -/
def C73.allDirect (rows : List Row) (direct : List (Nat × Nat)) : Bool :=
  (List.range rows.length).all fun n => ((tabICFG rows).callees n).all fun g =>
    !(g == 1 || g == 2) || (direct.find? fun x => x.1 == n).map (·.2) == some g

theorem C73.ev_prog {rows : List Row} {direct : List (Nat × Nat)} {f : Nat} (h : (C73.prog rows direct).evOf f ≠ []) :
    f = 1 ∨ f = 2 := by
  unfold evOf at h
  have h1 : ("f" : String) ≠ initializerFn := by decide
  have h2 : ("f" : String) ≠ shutdownFn := by decide
  by_cases e1 : f = 1
  · exact .inl e1
  · by_cases e2 : f = 2
    · exact .inr e2
    · simp [C73.prog, C73.names, e1, e2, h1, h2] at h

theorem C73.prog_wf {rows : List Row} {direct : List (Nat × Nat)} (h : C73.ok rows direct = true) :
    (C73.prog rows direct).WF := by
  simp only [C73.ok, Bool.and_eq_true, List.all_eq_true, List.isEmpty_iff] at h
  obtain ⟨⟨⟨h1, h2⟩, h3⟩, h4⟩ := h
  refine ⟨tabICFG_wfv h1, tabICFG_unique rows, ?_, ?_⟩
  · intro n f hf
    simp only [C73.prog, Option.map_eq_some_iff] at hf
    obtain ⟨⟨n', f'⟩, hx, rfl⟩ := hf
    have hm := List.mem_of_find?_eq_some hx
    have he := List.find?_some hx
    simp only [beq_iff_eq] at he
    subst he
    exact eq_of_beq (h2 _ hm)
  · intro f hf
    rcases C73.ev_prog hf with rfl | rfl
    · exact h3
    · exact h4

theorem C73.prog_direct {rows : List Row} {direct : List (Nat × Nat)} (h : C73.allDirect rows direct = true) :
    (C73.prog rows direct).DirectOnly := by
  intro n g hg hne
  by_cases hlt : n < rows.length
  · have := List.all_eq_true.1 (List.all_eq_true.1 h n (List.mem_range.2 hlt)) g hg
    rcases C73.ev_prog hne with rfl | rfl
    · simpa [C73.prog] using this
    · simpa [C73.prog] using this
  · simp [C73.prog, tabICFG, tabRow_ge hlt] at hg

theorem C73.prog_bounded {rows : List Row} {direct : List (Nat × Nat)} {S : List Nat}
    (h : (((tabStarts rows 0).all S.contains) && S.all fun n => ((tabICFG rows).succs n ++ (tabICFG rows).retSites n ++
      ((tabICFG rows).callees n).flatMap (tabStarts rows)).all S.contains) = true) :
    (C73.prog rows direct).Bounded S := by
  simp only [Bool.and_eq_true, List.all_eq_true, List.contains_iff_mem, List.mem_append] at h
  obtain ⟨h1, h2⟩ := h
  refine ⟨?_, ?_, ?_, ?_⟩
  · intro f hf sp hsp
    cases List.mem_singleton.1 hf
    exact h1 _ hsp
  · exact fun n hn n' hn' => h2 n hn n' (.inl (.inl hn'))
  · exact fun n hn n' hn' => h2 n hn n' (.inl (.inr hn'))
  · exact fun n hn g hg sp hsp => h2 n hn sp (.inr (List.mem_flatMap.2 ⟨g, hg, hsp⟩))

/-- Initialise, use, shut down, and on one branch initialise again:
`0: br; 1: call init; 2: br 3 or 4; 3: call done; 4: ret`. -/
def C73.ex1 : List Row :=
  [{ fn := 0, succs := [1] }, { fn := 0, call := some ([1], [2]) }, { fn := 0, succs := [3, 4] },
   { fn := 0, call := some ([2], [4]) }, { fn := 0, exit := true }]

/-- The direct calls of the first example. -/
def C73.dir1 : List (Nat × Nat) := [(1, 1), (3, 2)]

/-- Some settings of the edge functions. -/
def C73.cfg : EFCfg Empty Value := ⟨nofun, 1, true⟩

/-- The hypotheses of `C73_exact`, `C73_sound` and `C73_terminates` hold of the example; "initialised" is reported after the
initialisation, bottom where the shutdown may have happened, nothing before. -/
example : (C73.prog C73.ex1 C73.dir1).WF ∧ (C73.prog C73.ex1 C73.dir1).DirectOnly ∧
    (C73.prog C73.ex1 C73.dir1).Bounded [0, 1, 2, 3, 4] ∧
    ∃ st w, Solved ((C73.prog C73.ex1 C73.dir1).problem C73.cfg fun _ _ => false) st w ∧
      resultAt w 1 .initialized = none ∧ resultAt w 2 .initialized = some .initialized ∧
      resultAt w 3 .initialized = some .initialized ∧ resultAt w 4 .initialized = some .bot ∧ resultAt w 4 .zero = some .bot := by
  refine ⟨C73.prog_wf (by decide +kernel), C73.prog_direct (by decide +kernel), C73.prog_bounded (by decide +kernel), ?_⟩
  have h : ((solve ((C73.prog C73.ex1 C73.dir1).problem C73.cfg fun _ _ => false) 100).map fun x =>
      (resultAt x.2 1 .initialized, resultAt x.2 2 .initialized, resultAt x.2 3 .initialized, resultAt x.2 4 .initialized,
        resultAt x.2 4 .zero)) = some (none, some .initialized, some .initialized, some .bot, some .bot) := by decide +kernel
  obtain ⟨⟨st, w⟩, h1, h2⟩ := Option.map_eq_some_iff.1 h
  simp only [Prod.mk.injEq] at h2
  exact ⟨st, w, solve_sound h1, h2.1, h2.2.1, h2.2.2.1, h2.2.2.2.1, h2.2.2.2.2⟩

/-- An execution of the example that arrives at the exit with the heap shut down. -/
example : (C73.prog C73.ex1 C73.dir1).Exec false 4 [.init, .done] ∧ heap [.init, .done] = .down ∧ ShutAfterInit [.init, .done] := by
  refine ⟨⟨0, List.mem_singleton.2 rfl, 0, List.mem_singleton.2 rfl, [], ?_⟩, rfl, [], [], [], rfl⟩
  have h1 : (C73.prog C73.ex1 C73.dir1).Steps false ⟨[], 0, []⟩ ⟨[], 2, [.init]⟩ :=
    .tail (.tail (.refl _) (.normal (n' := 1) (by decide) (by decide)))
      (.ext (g := 1) (tr := []) (r := 2) (by decide) (by decide) (by decide +kernel) (by decide))
  exact .tail (.tail h1 (.normal (n' := 3) (by decide) (by decide)))
    (.ext (g := 2) (tr := [.init]) (r := 4) (by decide) (by decide) (by decide +kernel) (by decide))

theorem C73.solved (rows : List Row) (direct : List (Nat × Nat)) (S : List Nat) (h1 : C73.ok rows direct = true)
    (h2 : (((tabStarts rows 0).all S.contains) && S.all fun n => ((tabICFG rows).succs n ++ (tabICFG rows).retSites n ++
      ((tabICFG rows).callees n).flatMap (tabStarts rows)).all S.contains) = true)
    (c : EFCfg Empty Value) (lt : Edge → Edge → Bool) :
    ∃ st w, Solved ((C73.prog rows direct).problem c lt) st w := by
  obtain ⟨_, st, w, h⟩ := C73_terminates (c := c) (lt := lt) (C73.prog_wf h1) (C73.prog_bounded (direct := direct) h2)
  exact ⟨st, w, solve_sound h⟩

/-- `0: call init; 1: call done; 2: call init; 3: ret`. -/
def C73.exR : List Row :=
  [{ fn := 0, call := some ([1], [1]) }, { fn := 0, call := some ([2], [2]) }, { fn := 0, call := some ([1], [3]) },
   { fn := 0, exit := true }]

/-- The direct calls of `C73.exR`. -/
def C73.dirR : List (Nat × Nat) := [(0, 1), (1, 2), (2, 1)]

theorem C73.exR_inv {a : Conf} (h : (C73.prog C73.exR C73.dirR).Steps false ⟨[], 0, []⟩ a) :
    a.stk = [] ∧ ((a.n = 0 ∧ a.tr = []) ∨ (a.n = 1 ∧ a.tr = [.init]) ∨ (a.n = 2 ∧ a.tr = [.init, .done]) ∨
      (a.n = 3 ∧ a.tr = [.init, .done, .init])) := by
  induction h with
  | refl => exact ⟨rfl, .inl ⟨rfl, rfl⟩⟩
  | tail _ h ih =>
    obtain ⟨hk, ih⟩ := ih
    cases h with
    | normal h3 h4 => rcases ih with ⟨rfl, _⟩ | ⟨rfl, _⟩ | ⟨rfl, _⟩ | ⟨rfl, _⟩ <;> first | (cases h3; done) | cases h4
    | enter h3 h4 h5 =>
      rcases ih with ⟨rfl, _⟩ | ⟨rfl, _⟩ | ⟨rfl, _⟩ | ⟨rfl, _⟩ <;>
        first | (cases List.mem_singleton.1 h4; cases h5) | cases h4
    | ret => cases hk
    | ext h3 h4 h5 h6 =>
      rcases ih with ⟨rfl, rfl⟩ | ⟨rfl, rfl⟩ | ⟨rfl, rfl⟩ | ⟨rfl, rfl⟩
      · cases List.mem_singleton.1 h4; cases List.mem_singleton.1 h6; exact ⟨hk, .inr (.inl ⟨rfl, rfl⟩)⟩
      · cases List.mem_singleton.1 h4; cases List.mem_singleton.1 h6; exact ⟨hk, .inr (.inr (.inl ⟨rfl, rfl⟩))⟩
      · cases List.mem_singleton.1 h4; cases List.mem_singleton.1 h6; exact ⟨hk, .inr (.inr (.inr ⟨rfl, rfl⟩))⟩
      · cases h4
    | unknown h3 h4 h5 => rcases ih with ⟨rfl, _⟩ | ⟨rfl, _⟩ | ⟨rfl, _⟩ | ⟨rfl, _⟩ <;> first | (cases h4; done) | cases h3
    | over h => cases h

theorem C73.exR_exec : (C73.prog C73.exR C73.dirR).Exec false 3 [.init, .done, .init] := by
  have h1 : (C73.prog C73.exR C73.dirR).Steps false ⟨[], 0, []⟩ ⟨[], 1, [.init]⟩ :=
    .tail (.refl _) (.ext (g := 1) (tr := []) (r := 1) (by decide) (by decide) (by decide +kernel) (by decide))
  have h2 : (C73.prog C73.exR C73.dirR).Steps false ⟨[], 0, []⟩ ⟨[], 2, [.init, .done]⟩ :=
    .tail h1 (.ext (g := 2) (tr := [.init]) (r := 2) (by decide) (by decide) (by decide +kernel) (by decide))
  exact ⟨0, List.mem_singleton.2 rfl, 0, List.mem_singleton.2 rfl, [],
    .tail h2 (.ext (g := 1) (tr := [.init, .done]) (r := 3) (by decide) (by decide) (by decide +kernel) (by decide))⟩

/-- Initialising the heap again after a shutdown is not recognised: in a program without branches that initialises, shuts down
and initialises the heap, all executions arrive at the end with the heap on, and the bottom value is reported there. -/
theorem C73_reinit_false : ∃ p : Prog, p.WF ∧ p.DirectOnly ∧ ∃ n, (∃ tr, p.Exec false n tr) ∧
    (∀ tr, p.Exec false n tr → heap tr = .on) ∧
    ∀ c lt, ∃ st w, Solved (p.problem c lt) st w ∧ resultAt w n .initialized = some .bot := by
  have hwf : (C73.prog C73.exR C73.dirR).WF := C73.prog_wf (by decide +kernel)
  have hdir : (C73.prog C73.exR C73.dirR).DirectOnly := C73.prog_direct (by decide +kernel)
  refine ⟨_, hwf, hdir, 3, ⟨_, C73.exR_exec⟩, ?_, fun c lt => ?_⟩
  · rintro tr ⟨f, hf, sp, hsp, stk, h⟩
    cases List.mem_singleton.1 hf
    cases List.mem_singleton.1 (show sp ∈ [0] from hsp)
    obtain ⟨_, ⟨h1, _⟩ | ⟨h1, _⟩ | ⟨h1, _⟩ | ⟨_, h2⟩⟩ := C73.exR_inv h
    · cases h1
    · cases h1
    · cases h1
    · rw [show tr = _ from h2]; rfl
  · obtain ⟨st, w, h⟩ := C73.solved C73.exR C73.dirR [0, 1, 2, 3] (by decide +kernel) (by decide +kernel) c lt
    refine ⟨st, w, h, (C73_exact hwf hdir h 3).2.2.1.2 ⟨_, ?_, [], [], [.init], rfl⟩⟩
    obtain ⟨f, hf, sp, hsp, stk, hr⟩ := C73.exR_exec
    exact ⟨f, hf, sp, hsp, stk, Steps.weaken hr⟩

/-- What is reported in an example, for all settings, from what is reported for one. -/
theorem C73.result (rows : List Row) (direct : List (Nat × Nat)) (S : List Nat) (n : Nat) (r : Option Value)
    (h1 : C73.ok rows direct = true) (hd : C73.allDirect rows direct = true)
    (h2 : (((tabStarts rows 0).all S.contains) && S.all fun n => ((tabICFG rows).succs n ++ (tabICFG rows).retSites n ++
      ((tabICFG rows).callees n).flatMap (tabStarts rows)).all S.contains) = true)
    (h3 : (solve ((C73.prog rows direct).problem C73.cfg fun _ _ => false) 100).map
      (fun x => resultAt x.2 n .initialized) = some r)
    (c : EFCfg Empty Value) (lt : Edge → Edge → Bool) :
    ∃ st w, Solved ((C73.prog rows direct).problem c lt) st w ∧ resultAt w n .initialized = r := by
  obtain ⟨st, w, h⟩ := C73.solved rows direct S h1 h2 c lt
  obtain ⟨⟨st', w'⟩, h4, rfl⟩ := Option.map_eq_some_iff.1 h3
  exact ⟨st, w, h, C73_order (C73.prog_wf h1) (C73.prog_direct hd) h (solve_sound h4) n⟩

/-- `0: br 1 or 2; 1: call init; 2: ret`. -/
def C73.exB : List Row :=
  [{ fn := 0, succs := [1, 2] }, { fn := 0, call := some ([1], [2]) }, { fn := 0, exit := true }]

/-- The direct calls of `C73.exB`. -/
def C73.dirB : List (Nat × Nat) := [(1, 1)]

/-- "Initialised" does not mean that the heap is initialised in all executions: it is reported after a branch one side of which
does not initialise the heap. -/
theorem C73_paths_false : ∃ p : Prog, p.WF ∧ p.DirectOnly ∧ ∃ n tr, p.Exec false n tr ∧ heap tr = .never ∧
    ∀ c lt, ∃ st w, Solved (p.problem c lt) st w ∧ resultAt w n .initialized = some .initialized := by
  refine ⟨C73.prog C73.exB C73.dirB, C73.prog_wf (by decide +kernel), C73.prog_direct (by decide +kernel), 2, [], ?_, rfl,
    C73.result _ _ [0, 1, 2] 2 _ (by decide +kernel) (by decide +kernel) (by decide +kernel) (by decide +kernel)⟩
  exact ⟨0, List.mem_singleton.2 rfl, 0, List.mem_singleton.2 rfl, [],
    .tail (.refl _) (.normal (n' := 2) (by decide) (by decide))⟩

/-- `0: call init; 1: call *p; 2: ret`, where `p` can only point to the shutdown. -/
def C73.exI : List Row :=
  [{ fn := 0, call := some ([1], [1]) }, { fn := 0, call := some ([2], [2]) }, { fn := 0, exit := true }]

/-- The direct calls of `C73.exI`. -/
def C73.dirI : List (Nat × Nat) := [(0, 1)]

/-- A shutdown through a function pointer is not seen, even if the call graph resolves it: "initialised" is reported after it.
(So `C73_sound` needs that these functions are called directly.) -/
theorem C73_indirect_false : ∃ p : Prog, p.WF ∧ ∃ n tr, p.Exec false n tr ∧ heap tr = .down ∧
    ∃ c lt st w, Solved (p.problem c lt) st w ∧ resultAt w n .initialized = some .initialized := by
  refine ⟨C73.prog C73.exI C73.dirI, C73.prog_wf (by decide +kernel), 2, [.init, .done], ?_, rfl, C73.cfg, fun _ _ => false, ?_⟩
  · have h1 : (C73.prog C73.exI C73.dirI).Steps false ⟨[], 0, []⟩ ⟨[], 1, [.init]⟩ :=
      .tail (.refl _) (.ext (g := 1) (tr := []) (r := 1) (by decide) (by decide) (by decide +kernel) (by decide))
    exact ⟨0, List.mem_singleton.2 rfl, 0, List.mem_singleton.2 rfl, [],
      .tail h1 (.ext (g := 2) (tr := [.init]) (r := 2) (by decide) (by decide) (by decide +kernel) (by decide))⟩
  · have h : (solve ((C73.prog C73.exI C73.dirI).problem C73.cfg fun _ _ => false) 100).map
        (fun x => resultAt x.2 2 .initialized) = some (some .initialized) := by decide +kernel
    obtain ⟨⟨st, w⟩, h1, h2⟩ := Option.map_eq_some_iff.1 h
    exact ⟨st, w, solve_sound h1, h2⟩

/-- `main { 0: call init; 1: call f; 2: ret }`, `f { 3: br 4; 4: br 4 }`. -/
def C73.exN : List Row :=
  [{ fn := 0, call := some ([1], [1]) }, { fn := 0, call := some ([3], [2]) }, { fn := 0, exit := true },
   { fn := 3, succs := [4] }, { fn := 3, succs := [4] }]

/-- The direct calls of `C73.exN`. -/
def C73.dirN : List (Nat × Nat) := [(0, 1), (1, 3)]

theorem C73.exN_inv {a : Conf} (h : (C73.prog C73.exN C73.dirN).Steps false ⟨[], 0, []⟩ a) :
    (a.n = 0 ∨ a.n = 1) ∨ (a.n = 3 ∨ a.n = 4) := by
  induction h with
  | refl => exact .inl (.inl rfl)
  | tail _ h ih =>
    cases h with
    | normal h3 h4 =>
      rcases ih with (rfl | rfl) | (rfl | rfl)
      · cases h3
      · cases h3
      · exact .inr (.inr (List.mem_singleton.1 h4))
      · exact .inr (.inr (List.mem_singleton.1 h4))
    | enter h3 h4 h5 =>
      rcases ih with (rfl | rfl) | (rfl | rfl)
      · cases List.mem_singleton.1 h4; cases h5
      · cases List.mem_singleton.1 h4; exact .inr (.inl (List.mem_singleton.1 h5))
      · cases h3
      · cases h3
    | ret h3 h4 h5 => rcases ih with (rfl | rfl) | (rfl | rfl) <;> cases h4
    | ext h3 h4 h5 h6 =>
      rcases ih with (rfl | rfl) | (rfl | rfl)
      · exact .inl (.inr (List.mem_singleton.1 h6))
      · cases List.mem_singleton.1 h4; cases h5
      · cases h3
      · cases h3
    | unknown h3 h4 h5 =>
      rcases ih with (rfl | rfl) | (rfl | rfl)
      · cases h4
      · cases h4
      · cases h3
      · cases h3
    | over h => cases h

/-- Facts are carried over calls of functions that never return: "initialised" is reported at a statement no execution
arrives at. -/
theorem C73_noreturn_false : ∃ p : Prog, p.WF ∧ p.DirectOnly ∧ ∃ n, (∀ tr, ¬ p.Exec false n tr) ∧
    ∀ c lt, ∃ st w, Solved (p.problem c lt) st w ∧ resultAt w n .initialized = some .initialized := by
  refine ⟨C73.prog C73.exN C73.dirN, C73.prog_wf (by decide +kernel), C73.prog_direct (by decide +kernel), 2, ?_,
    C73.result _ _ [0, 1, 2, 3, 4] 2 _ (by decide +kernel) (by decide +kernel) (by decide +kernel) (by decide +kernel)⟩
  rintro tr ⟨f, hf, sp, hsp, stk, h⟩
  cases List.mem_singleton.1 hf
  cases List.mem_singleton.1 (show sp ∈ [0] from hsp)
  rcases C73.exN_inv h with (h | h) | (h | h) <;> cases h

end Phasar.SecureHeap
