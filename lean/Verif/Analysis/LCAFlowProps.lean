import Verif.Analysis.LCASim
import Verif.IDE.Table
/-!
# C49: what the linear constant analysis reports
-/
namespace Phasar.LCA
open JoinLat IDE FlowFn

namespace Prog
variable {p : Prog} {w : Nat}

/-- C49: for every execution of the program, every tracked variable and memory location has a result at the statement the
execution is at, and the result describes its value: it is bottom, or a constant with the same low `w` bits.  It is partial
because of `WF` (no pointers passed to functions, no unsigned and, for small widths, no signed division) and because of what
`CStep` leaves out (external functions that write memory, pointer arithmetic); the claim is false for the values that are not
tracked, see below. -/
theorem C49_sound_partial (hw : w ≤ 64) (hwf : p.WF w) (hicf : p.icf.WFV) {st : St Nat Val EF} {vs : VS Nat Val V}
    (h : Solved p.problem st vs) {s t : CState w} (hi : p.Init s) (he : p.CSteps s t) (k : Nat)
    (hk : (p.cell t.loc t.glob k).tracked = true) :
    ∃ l, resultAt vs t.n (.node k) = some l ∧ Describes l (p.cell t.loc t.glob k).v := by
  obtain ⟨v, ⟨n0, d0, v0, hs, hr⟩, hd⟩ := (inv_steps hw hwf hi he).1.cells k hk
  obtain ⟨l, hl, hle⟩ := C02_sound_facts alg_sound (facts_closed hwf) (ok_edges hwf) hicf no_top (seeds_at_start hwf) h t.n
    (.node k) v ⟨n0, d0, v0, _, hs, hr⟩
  exact ⟨l, hl, describes_mono hle hd⟩

/-- A statement that some execution reaches is not reported as unreachable: the zero fact has a result there. -/
theorem C49_reached (hw : w ≤ 64) (hwf : p.WF w) (hicf : p.icf.WFV) {st : St Nat Val EF} {vs : VS Nat Val V}
    (h : Solved p.problem st vs) {s t : CState w} (hi : p.Init s) (he : p.CSteps s t) :
    resultAt vs t.n .zero = some .bottom := by
  obtain ⟨n0, d0, v0, hs, hr⟩ := (inv_steps hw hwf hi he).1.zero
  obtain ⟨l, hl, hle⟩ := C02_sound_facts alg_sound (facts_closed hwf) (ok_edges hwf) hicf no_top (seeds_at_start hwf) h t.n
    .zero .bottom ⟨n0, d0, v0, _, hs, hr⟩
  rcases C36.le_cases hle with h | rfl | rfl
  · cases h
  · exact hl
  · exact hl

/-- The program is finite: the statements `S` and the variables `K` are all that can be reached.  Declarations have no start
points, and the called functions of the intrinsics are declarations. -/
structure Bounded (p : Prog) (S K : List Nat) : Prop where
  entries : ∀ n ∈ p.entries, n ∈ S
  succs : ∀ n ∈ S, ∀ n' ∈ p.icf.succs n, n' ∈ S
  starts : ∀ n ∈ S, ∀ f ∈ p.icf.callees n, ∀ sp ∈ p.icf.starts f, sp ∈ S
  rets : ∀ n ∈ S, ∀ r ∈ p.icf.retSites n, r ∈ S
  results : ∀ n ∈ S, n ∈ K
  globals : ∀ g ∈ p.globals, g.1 ∈ K
  stores : ∀ n int v k b, n ∈ S → p.inst n = .store int v k b → k ∈ K ∧ b ∈ K
  params : ∀ n ∈ S, ∀ f ∈ p.icf.callees n, ∀ k ∈ p.params f, k ∈ K
  decls : ∀ f, p.isDecl f = true → p.icf.starts f = []
  intrinsics : ∀ n sat op l r, p.inst n = .intrinsic sat op l r → ∀ f ∈ p.icf.callees n, p.isDecl f = true

/-- The facts that can be reached in a finite program. -/
theorem C49.reach_bounded (hwf : p.WF w) {S K : List Nat} (hb : p.Bounded S K) {n : Nat} {d : Val}
    (h : FactReachable p.problem n d) : n ∈ S ∧ (d = .zero ∨ ∃ k ∈ K, d = .node k) := by
  obtain ⟨n0, d0, stk, ⟨facts, hs, hd0⟩, hr⟩ := h
  have key : ∀ a b, FSteps p.problem a b → (∀ c ∈ a.1, c ∈ S) → a.2.1 ∈ S → (a.2.2 = .zero ∨ ∃ k ∈ K, a.2.2 = .node k) →
      (∀ c ∈ b.1, c ∈ S) ∧ b.2.1 ∈ S ∧ (b.2.2 = .zero ∨ ∃ k ∈ K, b.2.2 = .node k) := by
    intro a b hab h1 h2 h3
    induction hab with
    | refl => exact ⟨h1, h2, h3⟩
    | tail _ hst ih =>
      obtain ⟨i1, i2, i3⟩ := ih
      cases hst with
      | @normal stk n d n' d' hc hn hd =>
        refine ⟨i1, hb.succs n i2 n' hn, ?_⟩
        change d' ∈ p.normalFlow n d at hd
        rcases normalFlow_shape (p := p) n with ⟨x, e⟩ | ⟨q, e⟩ | ⟨int, v, k, b, hi, ⟨q, e⟩ | e⟩ | e <;> rw [e] at hd
        · rcases mem_generate.1 hd with rfl | ⟨_, rfl⟩
          · exact i3
          · exact .inr ⟨n, hb.results n i2, rfl⟩
        · rcases mem_generateIf.1 hd with rfl | ⟨_, rfl⟩
          · exact i3
          · exact .inr ⟨n, hb.results n i2, rfl⟩
        · rcases ((C50_store ..).1 hd).2.2 with rfl | ⟨_, rfl | rfl⟩
          · exact i3
          · exact .inr ⟨k, (hb.stores n _ _ _ _ i2 hi).1, rfl⟩
          · exact .inr ⟨b, (hb.stores n _ _ _ _ i2 hi).2, rfl⟩
        · rcases ((C50_store_value ..).1 hd).2.2 with rfl | ⟨_, rfl | rfl⟩
          · exact i3
          · exact .inr ⟨k, (hb.stores n _ _ _ _ i2 hi).1, rfl⟩
          · exact .inr ⟨b, (hb.stores n _ _ _ _ i2 hi).2, rfl⟩
        · rw [mem_identity.1 hd]; exact i3
      | @call stk n d g sp d' hc hg hsum hsp hd =>
        refine ⟨fun c hc => ?_, hb.starts n i2 g hg sp hsp, ?_⟩
        · rcases List.mem_cons.1 hc with rfl | hc
          · exact i2
          · exact i1 c hc
        · change d' ∈ p.callFlow n g d at hd
          unfold callFlow at hd
          split at hd
          · rw [mem_identity.1 hd]; exact i3
          · obtain ⟨_, ⟨rfl, _⟩ | ⟨i, a, e, _⟩ | ⟨e, _⟩⟩ := (C50_callee ..).1 hd
            · exact i3
            · simp only [callee, List.getElem?_map, Option.map_eq_some_iff] at e
              obtain ⟨k, hk, rfl⟩ := e
              exact .inr ⟨k, hb.params n i2 g hg k (List.mem_of_getElem? hk), rfl⟩
            · exact absurd e List.not_mem_nil
      | @ret stk c n d r d' hc hex hr hd =>
        have hcS := i1 c List.mem_cons_self
        refine ⟨fun c' hc' => i1 c' (List.mem_cons_of_mem _ hc'), hb.rets c hcS r hr, ?_⟩
        change d' ∈ p.retFlow c (p.icf.funOf n) n d at hd
        obtain ⟨rfl, _⟩ | ⟨i, q, e, _, e3⟩ | ⟨⟨a, e, _⟩, _⟩ | ⟨_, _, _, rfl⟩ := (C50_caller_partial ..).1 hd
        · exact i3
        · simp only [callee, List.getElem?_map, Option.map_eq_some_iff] at e
          obtain ⟨k, hk, rfl⟩ := e
          have := ((hwf.params _).2.2 k (List.mem_of_getElem? hk)).2
          simp [ptrTy, this] at e3
        · exact absurd e List.not_mem_nil
        · exact .inr ⟨c, hb.results c hcS, rfl⟩
      | @callToRet stk n d r d' hc hr hd =>
        refine ⟨i1, hb.rets n i2 r hr, ?_⟩
        change d' ∈ p.ctrFlow n d at hd
        unfold ctrFlow at hd
        split at hd
        · rw [mem_identity.1 hd]; exact i3
        · rw [((C50_alongside ..).1 hd).1]; exact i3
      | @summary stk n d g sum r d' hc hg hsum hr hd =>
        refine ⟨i1, hb.rets n i2 r hr, ?_⟩
        change p.summaryFlow n = some sum at hsum
        unfold summaryFlow at hsum
        split at hsum
        · cases hsum
          rcases mem_generateIf.1 hd with rfl | ⟨_, rfl⟩
          · exact i3
          · exact .inr ⟨n, hb.results n i2, rfl⟩
        · cases hsum
  obtain ⟨sp, hsp, e⟩ := List.mem_map.1 hs
  cases e
  have := key _ _ hr (fun c hc => absurd hc List.not_mem_nil) (hb.entries _ hsp) (by
    rcases hd0 with hd0 | hd0
    · simp only [List.map_cons, List.map_map, List.mem_cons, List.mem_map, Function.comp] at hd0
      rcases hd0 with rfl | ⟨g, hg, rfl⟩
      · exact .inl rfl
      · exact .inr ⟨g.1, hb.globals g hg, rfl⟩
    · exact .inl hd0)
  exact this.2

/-- C49: the solver terminates for this analysis on every finite program, although there are infinitely many constants. -/
theorem C49_terminates (hwf : p.WF w) (hicf : p.icf.WFV) (huniq : p.icf.UniqueStart) {S K : List Nat} (hb : p.Bounded S K) :
    Acc (fun t s => SStep p.problem s t) (init p.problem) ∧
    (∀ s, Reach p.problem s → Acc (fun w v => VStep p.problem s v w) (submitInitialValues p.problem s)) ∧
    ∃ fuel s w, solve p.problem fuel = some (s, w) := by
  refine C05_terminates_facts alg_sound.okClosed (facts_closed hwf) (ok_edges hwf) hicf huniq rfl (seeds_at_start hwf) ?_
    alg_finite v_finite (S.flatMap fun n => (Val.zero :: K.map .node).map fun d => (n, d)) fun n d h => ?_
  · intro n g sm hg hs
    change p.summaryFlow n = some sm at hs
    unfold summaryFlow at hs
    split at hs
    · rename_i hi
      exact .inl (hb.decls g (hb.intrinsics _ _ _ _ _ hi g hg))
    · cases hs
  · obtain ⟨h1, h2⟩ := C49.reach_bounded hwf hb h
    refine List.mem_flatMap.2 ⟨n, h1, List.mem_map.2 ⟨d, ?_, rfl⟩⟩
    rcases h2 with rfl | ⟨k, hk, rfl⟩
    · exact List.mem_cons_self
    · exact List.mem_cons_of_mem _ (List.mem_map.2 ⟨k, hk, rfl⟩)

/-- C49: so the analysis of a finite program ends, and its results hold for all executions. -/
theorem C49_total_partial (hw : w ≤ 64) (hwf : p.WF w) (hicf : p.icf.WFV) (huniq : p.icf.UniqueStart) {S K : List Nat}
    (hb : p.Bounded S K) : ∃ fuel st vs, solve p.problem fuel = some (st, vs) ∧
      ∀ s t : CState w, p.Init s → p.CSteps s t → ∀ k, (p.cell t.loc t.glob k).tracked = true →
        ∃ l, resultAt vs t.n (.node k) = some l ∧ Describes l (p.cell t.loc t.glob k).v := by
  obtain ⟨_, _, fuel, st, vs, h⟩ := C49_terminates hwf hicf huniq hb
  exact ⟨fuel, st, vs, h, fun s t hi he k hk => C49_sound_partial hw hwf hicf (solve_sound h) hi he k hk⟩

/-! ### An example

```
int g = 3;
int f(int a, int b) { return a * 2; }
main: x = alloca; store 5, x; y = load x; z = y + 7; r = f(z, 2); store r, g; o = add.with.overflow(z, 1); e = o.0; ret
```
-/

/-- The rows of the graph: `main` is function 0, `f` is function 1, the intrinsic is function 2. -/
def C49.exRows : List Row :=
  [{ fn := 0, succs := [1] }, { fn := 0, succs := [2] }, { fn := 0, succs := [3] }, { fn := 0, succs := [4] },
   { fn := 0, call := some ([1], [5]) }, { fn := 0, succs := [6] }, { fn := 0, call := some ([2], [7]) },
   { fn := 0, succs := [8] }, { fn := 0, exit := true }, { fn := 1, succs := [10] }, { fn := 1, exit := true }]

/-- The instructions. -/
def C49.exInst : Nat → Inst
  | 0 => .alloca true
  | 1 => .store true (.const 5) 0 0
  | 2 => .load true 0
  | 3 => .bin .add (.node 2) (.const 7)
  | 4 => .call [.node 3, .const 2]
  | 5 => .store true (.node 4) 20 20
  | 6 => .intrinsic false .add (.node 3) (.const 1)
  | 7 => .extract true 0 6
  | 8 => .ret none
  | 9 => .bin .mul (.node 12) (.const 2)
  | 10 => .ret (some (.node 9))
  | _ => .other

/-- The program. -/
def C49.ex : Prog where
  inst := C49.exInst
  icf := tabICFG C49.exRows
  isGlobal := fun k => k == 20
  isPtr := fun k => k == 0 || k == 20
  params := fun f => if f = 1 then [12, 13] else []
  sret := fun _ => false
  isDecl := fun f => f == 2
  globals := [(20, 3)]
  entries := [0]

theorem C49.ex_wf : C49.ex.WF 32 where
  ops n op l r h := by
    rcases h with h | ⟨_, h⟩ <;> (simp only [C49.ex, C49.exInst] at h; split at h <;> cases h) <;>
      exact ⟨by simp [OkOp], fun h => by rcases h with h | h <;> cases h⟩
  ssa n op l r h := by
    rcases h with h | ⟨_, h⟩ <;> (simp only [C49.ex, C49.exInst] at h; split at h <;> cases h) <;> decide
  store n int v k b h := by
    simp only [C49.ex, C49.exInst] at h; split at h <;> cases h <;> decide
  args n as h := by
    simp only [C49.ex, C49.exInst] at h; split at h <;> cases h <;> decide
  params f := by
    by_cases h : f = 1
    · subst h; decide
    · simp [C49.ex, h]
  arity n as h := by
    simp only [C49.ex, C49.exInst] at h; split at h <;> cases h <;> decide
  entries := by decide

theorem C49.ex_wfv : C49.ex.icf.WFV := tabICFG_wfv (by decide)

theorem C49.ex_bounded : C49.ex.Bounded (List.range 11) (List.range 21) where
  entries := by decide
  succs := by decide
  starts := by decide
  rets := by decide
  results := by decide
  globals := by decide
  stores n int v k b _ h := by
    simp only [C49.ex, C49.exInst] at h; split at h <;> cases h <;> decide
  params := by decide
  decls f h := by
    have : f = 2 := by simpa [C49.ex] using h
    subst this; decide
  intrinsics n sat op l r h := by
    simp only [C49.ex, C49.exInst] at h; split at h <;> cases h <;> decide

/-- What the solver reports for the example: after the call, `z` is 12, `r` is 24, `g` still 3; at the end, `g` is 24 and `e`
is 13.  `x` is 5; the second parameter of `f` is 2 inside `f`. -/
example : ∃ st vs, Solved C49.ex.problem st vs ∧
    resultAt vs 5 (.node 3) = some (.val 12) ∧ resultAt vs 5 (.node 4) = some (.val 24) ∧
    resultAt vs 5 (.node 20) = some (.val 3) ∧ resultAt vs 8 (.node 20) = some (.val 24) ∧
    resultAt vs 8 (.node 7) = some (.val 13) ∧ resultAt vs 8 (.node 0) = some (.val 5) ∧
    resultAt vs 9 (.node 13) = some (.val 2) := by
  have h : ((solve C49.ex.problem 200).map fun r =>
      [resultAt r.2 5 (.node 3), resultAt r.2 5 (.node 4), resultAt r.2 5 (.node 20), resultAt r.2 8 (.node 20),
        resultAt r.2 8 (.node 7), resultAt r.2 8 (.node 0), resultAt r.2 9 (.node 13)]) =
      some [some (.val 12), some (.val 24), some (.val 3), some (.val 24), some (.val 13), some (.val 5), some (.val 2)] := by
    decide +kernel
  cases hs : solve C49.ex.problem 200 with
  | none => rw [hs] at h; cases h
  | some r =>
    obtain ⟨st, vs⟩ := r
    rw [hs] at h
    simp only [Option.map_some, Option.some.injEq, List.cons.injEq, and_true] at h
    exact ⟨st, vs, solve_sound hs, h⟩

/-- `C49_total_partial` applies to the example. -/
example : ∃ fuel st vs, solve C49.ex.problem fuel = some (st, vs) ∧
      ∀ s t : CState 32, C49.ex.Init s → C49.ex.CSteps s t → ∀ k, (C49.ex.cell t.loc t.glob k).tracked = true →
        ∃ l, resultAt vs t.n (.node k) = some l ∧ Describes l (C49.ex.cell t.loc t.glob k).v :=
  C49_total_partial (by decide) C49.ex_wf C49.ex_wfv (tabICFG_unique _) C49.ex_bounded

/-- And there is an execution of it through the call that ends with a tracked `r` with value 24. -/
theorem C49.ex_run : ∃ s t : CState 32, C49.ex.Init s ∧ C49.ex.CSteps s t ∧ t.n = 5 ∧
    (C49.ex.cell t.loc t.glob 4).tracked = true ∧ (C49.ex.cell t.loc t.glob 4).v = 24 := by
  let loc0 : Nat → Cell 32 := fun _ => ⟨9, false⟩
  let glob : Nat → Cell 32 := fun k => if k = 20 then ⟨3, true⟩ else ⟨0, false⟩
  let p := C49.ex
  let l1 := upd loc0 0 ⟨77, true⟩
  let l2 := (p.write l1 glob 0 (p.opCell l1 glob (.const 5))).1
  let l3 := upd l2 2 (p.cell l2 glob 0)
  let l4 := upd l3 3 ⟨12, true⟩
  let f0 : Nat → Cell 32 := fun k =>
    if k = 12 then p.opCell l4 glob (.node 3) else if k = 13 then p.opCell l4 glob (.const 2) else ⟨1, false⟩
  let f1 := upd f0 9 ⟨24, true⟩
  refine ⟨⟨[], 0, loc0, glob⟩, ⟨[], 5, upd l4 4 (p.opCell f1 glob (.node 9)), glob⟩, ⟨rfl, by decide, fun _ => rfl, ?_⟩, ?_, rfl,
    by decide, by decide⟩
  · intro k hk
    by_cases h : k = 20
    · subst h; exact ⟨3, by decide, by decide⟩
    · simp [glob, h] at hk
  · have s1 : p.CSteps ⟨[], 0, loc0, glob⟩ ⟨[], 1, l1, glob⟩ :=
      .tail (.refl _) (.normal (by decide) (by decide) (.alloca 77 rfl))
    have s2 : p.CSteps ⟨[], 0, loc0, glob⟩ ⟨[], 2, l2, glob⟩ :=
      .tail s1 (.normal (by decide) (by decide) (.store (.const 5) 0 rfl))
    have s3 : p.CSteps ⟨[], 0, loc0, glob⟩ ⟨[], 3, l3, glob⟩ :=
      .tail s2 (.normal (by decide) (by decide) (.load 0 rfl))
    have s4 : p.CSteps ⟨[], 0, loc0, glob⟩ ⟨[], 4, l4, glob⟩ :=
      .tail s3 (.normal (by decide) (by decide) (.bin .add (.node 2) (.const 7) 12 rfl (.inr (by decide))))
    have s5 : p.CSteps ⟨[], 0, loc0, glob⟩ ⟨[(4, l4)], 9, f0, glob⟩ := by
      refine .tail s4 (.call (f := 1) (by decide) rfl (by decide) (by decide) (by decide) ?_ ?_)
      · intro i k a hk ha
        match i with
        | 0 => cases hk; cases ha; rfl
        | 1 => cases hk; cases ha; rfl
        | n + 2 => cases hk
      · intro k hk
        have h1 : k ≠ 12 ∧ k ≠ 13 := by
          constructor <;> (rintro rfl; exact hk (by decide))
        simp [f0, h1.1, h1.2]
    have s6 : p.CSteps ⟨[], 0, loc0, glob⟩ ⟨[(4, l4)], 10, f1, glob⟩ :=
      .tail s5 (.normal (by decide) (by decide) (.bin .mul (.node 12) (.const 2) 24 rfl (.inr (by decide))))
    exact .tail s6 (.ret (p.opCell f1 glob (.node 9)) (by decide) (by decide) rfl (by decide)
      (fun a h => by cases h; rfl) (fun h => by cases h))

/-! ### Where the claim fails -/

/-- A program without global variables, parameters and external functions. -/
def C49.plain (rows : List Row) (inst : Nat → Inst) (decl : Nat → Bool := fun _ => false) (glob : List (Nat × BitVec 64) := []) :
    Prog where
  inst := inst
  icf := tabICFG rows
  isGlobal := fun k => k == 20
  isPtr := fun _ => false
  params := fun _ => []
  sret := fun _ => false
  isDecl := decl
  globals := glob
  entries := [0]

/-- `if (..) x = argc; else x = 5; y = x;`, where `argc` is the value 10. -/
def C49.argc : Prog :=
  C49.plain [{ fn := 0, succs := [1] }, { fn := 0, succs := [2, 3] }, { fn := 0, succs := [4] }, { fn := 0, succs := [4] },
    { fn := 0, succs := [5] }, { fn := 0, exit := true }]
    fun
    | 0 => .alloca true
    | 2 => .store true (.node 10) 0 0
    | 3 => .store true (.const 5) 0 0
    | 4 => .load true 0
    | 5 => .ret none
    | _ => .other

/-- Values the analysis does not track, like the parameters of entry functions, are wrongly ignored where control flow merges:
the analysis reports 5 for `y` although an execution arrives with 7. -/
theorem C49_untracked_false : ∃ fuel st vs, solve C49.argc.problem fuel = some (st, vs) ∧
    resultAt vs 5 (.node 4) = some (.val 5) ∧
    ∃ s t : CState 32, C49.argc.Init s ∧ C49.argc.CSteps s t ∧ t.n = 5 ∧ (C49.argc.cell t.loc t.glob 4).v = 7 ∧
      ¬ Describes (.val 5) (C49.argc.cell t.loc t.glob 4).v := by
  have h : ((solve C49.argc.problem 100).map fun r => resultAt r.2 5 (.node 4)) = some (some (.val 5)) := by decide +kernel
  cases hs : solve C49.argc.problem 100 with
  | none => rw [hs] at h; cases h
  | some r =>
    obtain ⟨st, vs⟩ := r
    rw [hs] at h
    simp only [Option.map_some, Option.some.injEq] at h
    let p := C49.argc
    let loc0 : Nat → Cell 32 := fun _ => ⟨7, false⟩
    let glob : Nat → Cell 32 := fun _ => ⟨0, false⟩
    let l1 := upd loc0 0 ⟨77, true⟩
    let l2 := upd l1 1 ⟨0, false⟩
    let l3 := (p.write l2 glob 0 (p.opCell l2 glob (.node 10))).1
    let l4 := upd l3 4 (p.cell l3 glob 0)
    refine ⟨100, st, vs, hs, h, ⟨[], 0, loc0, glob⟩, ⟨[], 5, l4, glob⟩, ⟨rfl, by decide, fun _ => rfl, fun k hk => by cases hk⟩, ?_,
      rfl, by decide, (show ¬ (5#64).setWidth 32 = 7#32 by decide)⟩
    have s1 : p.CSteps ⟨[], 0, loc0, glob⟩ ⟨[], 1, l1, glob⟩ :=
      .tail (.refl _) (.normal (by decide) (by decide) (.alloca 77 rfl))
    have s2 : p.CSteps ⟨[], 0, loc0, glob⟩ ⟨[], 2, l2, glob⟩ :=
      .tail s1 (.normal (by decide) (by decide) (.other 0 (.inl rfl)))
    have s3 : p.CSteps ⟨[], 0, loc0, glob⟩ ⟨[], 4, l3, glob⟩ :=
      .tail s2 (.normal (by decide) (by decide) (.store (.node 10) 0 rfl))
    exact .tail s3 (.normal (by decide) (by decide) (.load 0 rfl))

/-- `extractvalue` of index 1 of an overflow intrinsic is the overflow bit; the analysis reports the sum for it
(`IDELinearConstantAnalysis.cpp:346-358` does not look at the index). -/
theorem C49_extract_false :
    ((solve (C49.plain [{ fn := 0, call := some ([1], [1]) }, { fn := 0, succs := [2] }, { fn := 0, exit := true }]
      (fun | 0 => .intrinsic false .add (.const 5) (.const 7) | 1 => .extract true 1 0 | 2 => .ret none | _ => .other)
      (fun f => f == 1)).problem 100).map fun r => (resultAt r.2 2 (.node 0), resultAt r.2 2 (.node 1))) =
    some (some (.val 12), some (.val 12)) := by decide +kernel

/-- Saturating intrinsics are folded like the plain operation: for `sadd.sat.i8(100, 100)`, which is 127, the analysis reports
200. -/
theorem C49_saturating_false :
    ((solve (C49.plain [{ fn := 0, call := some ([1], [1]) }, { fn := 0, exit := true }]
      (fun | 0 => .intrinsic true .add (.const 100) (.const 100) | 1 => .ret none | _ => .other)
      (fun f => f == 1)).problem 100).map fun r => resultAt r.2 1 (.node 0)) = some (some (.val 200)) ∧
    ¬ Describes (.val 200) (127#8) := ⟨by decide +kernel, show ¬ (200#64).setWidth 8 = 127#8 by decide⟩

/-- `fp()` where `fp` may be the external function 2 or the function 1, which sets the global variable from 1 to 2: facts about
global variables survive neither the call-to-return edge nor the call of the external function, so the analysis reports 2 after
the call, although the external function may have been called. -/
theorem C49_mixed_callees_false :
    ((solve (C49.plain [{ fn := 0, call := some ([1, 2], [1]) }, { fn := 0, exit := true }, { fn := 1, succs := [3] },
        { fn := 1, exit := true }]
      (fun | 0 => .call [] | 1 => .ret none | 2 => .store true (.const 2) 20 20 | 3 => .ret none | _ => .other)
      (fun f => f == 2) [(20, 1)]).problem 100).map fun r => (resultAt r.2 0 (.node 20), resultAt r.2 1 (.node 20))) =
    some (some (.val 1), some (.val 2)) := by decide +kernel

/-- An external function may change a global variable; the analysis keeps the old constant. -/
theorem C49_external_false :
    ((solve (C49.plain [{ fn := 0, call := some ([1], [1]) }, { fn := 0, exit := true }]
      (fun | 0 => .call [] | 1 => .ret none | _ => .other) (fun f => f == 1) [(20, 1)]).problem 100).map
        fun r => resultAt r.2 1 (.node 20)) = some (some (.val 1)) := by decide +kernel

end Prog
end Phasar.LCA
