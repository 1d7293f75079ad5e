import Verif.Mono.ProbLemmas
import Verif.Mono.Props
/-!
# Properties C68 and C69: the intraprocedural analyses of the monotone framework
-/
namespace Phasar
open IntraMono MonoProb

/-! ## Functions to try the theorems on -/

/-- A function given by its instructions and edges. -/
def C68.fn (is : List Inst) (es : List (Nat × Nat)) : Func where
  funs := [(List.range is.length, es)]
  succs s := (es.filter (fun e => e.1 = s)).map (fun e => e.2)
  preds d := (es.filter (fun e => e.2 = d)).map (fun e => e.1)
  branchTarget s d := es.any (fun e => e.2 = d && e.1 ≠ s)
  starts := [0]
  inst n := is.getD n .other

theorem C68.fn_edge {is es s d} : (C68.fn is es).Edge s d ↔ (s, d) ∈ es := by
  simp [Func.Edge, C68.fn]

theorem C68.fn_node {is es n} : (C68.fn is es).Node n ↔ n < is.length := by
  simp [Func.Node, C68.fn]

/-- The fields of such a function describe one graph. -/
theorem C68.fn_wf {C : Type} (P : IProb Nat C) {is es} (h : ∀ e ∈ es, e.1 < is.length ∧ e.2 < is.length)
    (h1 : P.funs = (C68.fn is es).funs) (h2 : P.succs = (C68.fn is es).succs)
    (h3 : P.preds = (C68.fn is es).preds) (h4 : P.branchTarget = (C68.fn is es).branchTarget) : WfCfg P := by
  have he : ∀ s d, IntraMono.Edge P s d ↔ (s, d) ∈ es := by
    intro s d; unfold IntraMono.Edge; rw [h1]; simp [C68.fn]
  have hn : ∀ n, IntraMono.Node P n ↔ n < is.length := by
    intro n; unfold IntraMono.Node; rw [h1]; simp [C68.fn]
  have hs : ∀ s d, d ∈ P.succs s ↔ (s, d) ∈ es := by
    intro s d; rw [h2]; simp [C68.fn]
  have hp : ∀ s d, s ∈ P.preds d ↔ (s, d) ∈ es := by
    intro s d; rw [h3]; simp [C68.fn]
  refine ⟨?_, ?_, ?_, ?_, ?_, ?_⟩
  · intro s d; rw [he, hs]; exact id
  · intro s d _; rw [he, hs]; exact id
  · intro s d; rw [he, hp]; exact id
  · intro s d _; rw [he, hp]; exact id
  · intro s d hsd
    rw [he] at hsd
    rw [hn, hn]
    exact h _ hsd
  · intro s d _ hb p hpd
    rw [hp] at hpd
    rw [h4] at hb
    have := List.any_eq_false.1 hb (p, d) hpd
    simpa using this

theorem C68.fn_wfU {is es} (h : ∀ e ∈ es, e.1 < is.length ∧ e.2 < is.length) :
    WfCfg (uninitProb (C68.fn is es)) := C68.fn_wf _ h rfl rfl rfl rfl

theorem C68.fn_wfC {is es} (h : ∀ e ∈ es, e.1 < is.length ∧ e.2 < is.length) :
    WfCfg (constProb (C68.fn is es)) := C68.fn_wf _ h rfl rfl rfl rfl

/-! ## C68: uninitialized variables -/

/-- C68, results: whenever `solve()` returns, the variables reported after a statement are exactly those that
are derivably open there: the statement allocates the variable, or it does not store an integer constant to it,
has predecessors, and the variable is derivably open after all of them. -/
theorem C68_results {F : Func} (hw : WfCfg (uninitProb F)) {k : Nat} {R : AMap Nat (List Nat)}
    (h : solve (uninitProb F) k [] = some R) {n : Nat} (hn : F.Node n) (v : Nat) :
    v ∈ getResultsAt (uninitProb F) R n ↔ F.After v n := by
  obtain ⟨A, hA, hR⟩ := C23.returned h
  rw [hR n hn]
  show v ∈ uninitFlow F n _ ↔ _
  rw [mem_flow, uninit_at hw hA]
  constructor
  · rintro (h | ⟨h1, h2, h3⟩)
    · exact .alloc h
    · exact .keep h1 h2 h3
  · intro h
    cases h with
    | alloc h => exact .inl h
    | keep h1 h2 h3 => exact .inr ⟨h1, h2, h3⟩

/-- C68, termination: `solve()` returns for every function. -/
theorem C68_terminates {F : Func} (hw : WfCfg (uninitProb F)) :
    ∃ k R, solve (uninitProb F) k [] = some R := by
  let L := F.funs.flatMap (fun f => f.1)
  let P := uninitProb F
  have hQ : ∀ v a b, v ∈ P.merge a b ↔ v ∈ a ∧ v ∈ b := fun v a b => mem_inter
  -- in-facts hold variables of the function and stay within what the predecessors send
  let I : AMap Nat (List Nat) → Prop := fun A =>
    (∀ n v, v ∈ at' P A n → v ∈ L) ∧
    ∀ s d, IntraMono.Edge P s d → ∀ v ∈ at' P A d, v ∈ uninitFlow F s (at' P A s)
  have hmono : ∀ s (a b : List Nat), (∀ v ∈ a, v ∈ b) → ∀ v ∈ uninitFlow F s a, v ∈ uninitFlow F s b := by
    intro s a b hab v hv
    rcases mem_flow.1 hv with h | ⟨h1, h2⟩
    · exact mem_flow.2 (.inl h)
    · exact mem_flow.2 (.inr ⟨h1, hab v h2⟩)
  have hin : ∀ A s d, IntraMono.Edge P s d → I A → ∀ v ∈ at' P A d, v ∈ outOf P (at' P A) s d := by
    intro A s d hsd hI v hv
    exact (outOf_iff hw (fun c => v ∈ c) (hQ v) _ hsd).2 (fun p hp => hI.2 p d hp v hv)
  have hstep : ∀ s d A, IntraMono.Edge P s d → I A → I (process P A s d).1 := by
    intro s d A hsd hI
    rcases process_spec P A s d with ⟨_, hat, _⟩ | ⟨_, hat, _⟩
    · have hfun : at' P (process P A s d).1 = at' P A := funext hat
      simp only [I, hfun]
      exact hI
    · have hup : ∀ n, ∀ v ∈ at' P A n, v ∈ at' P (process P A s d).1 n := by
        intro n v hv
        rw [hat]
        split
        · rename_i e; subst e; exact hin A s d hsd hI v hv
        · exact hv
      refine ⟨?_, ?_⟩
      · intro n v hv
        rw [hat] at hv
        split at hv
        · have := (outOf_iff hw (fun c => v ∈ c) (hQ v) _ hsd).1 hv s hsd
          rcases mem_flow.1 this with h | ⟨_, h⟩
          · obtain ⟨f, hf, hs⟩ := (hw.edge_nodes s d hsd).1
            rw [← h.1]
            exact List.mem_flatMap.2 ⟨f, hf, hs⟩
          · exact hI.1 _ _ h
        · exact hI.1 _ _ hv
      · intro s2 d2 h2 v hv
        rw [hat] at hv
        split at hv
        · rename_i e
          subst e
          exact hmono _ _ _ (hup s2) v ((outOf_iff hw (fun c => v ∈ c) (hQ v) _ hsd).1 hv s2 h2)
        · exact hmono _ _ _ (hup s2) v (hI.2 s2 d2 h2 v hv)
  let rank : List Nat → Nat := fun c => (L.filter (fun v => v ∈ c)).length
  have hlen : ∀ (l : List Nat) (p q : Nat → Bool), (∀ v, p v = true → q v = true) →
      (l.filter p).length ≤ (l.filter q).length := by
    intro l p q hpq
    induction l with
    | nil => exact Nat.le_refl _
    | cons x l ih =>
      simp only [List.filter_cons]
      by_cases hp : p x = true
      · simp only [hp, hpq x hp, if_true, List.length_cons]; omega
      · by_cases hq : q x = true
        · simp only [hp, hq, if_true, Bool.false_eq_true, if_false, List.length_cons]; omega
        · simpa only [hp, hq, Bool.false_eq_true, if_false] using ih
  have hlt : ∀ (l : List Nat) (p q : Nat → Bool), (∀ v, p v = true → q v = true) →
      (∃ v ∈ l, p v = false ∧ q v = true) → (l.filter p).length < (l.filter q).length := by
    intro l p q hpq
    induction l with
    | nil => rintro ⟨v, hv, _⟩; cases hv
    | cons x l ih =>
      rintro ⟨v, hv, h1, h2⟩
      simp only [List.filter_cons]
      rcases List.mem_cons.1 hv with rfl | hv
      · simp only [h1, h2, if_true, Bool.false_eq_true, if_false, List.length_cons]
        have := hlen l p q hpq
        omega
      · have := ih ⟨v, hv, h1, h2⟩
        by_cases hp : p x = true
        · simp only [hp, hpq x hp, if_true, List.length_cons]; omega
        · by_cases hq : q x = true
          · simp only [hp, hq, if_true, Bool.false_eq_true, if_false, List.length_cons]; omega
          · simpa only [hp, hq, Bool.false_eq_true, if_false] using this
  have hI0 : I (initSt P ⟨[], []⟩).an :=
    ⟨fun n v hv => absurd hv (uninit_init F n v), fun s d _ v hv => absurd hv (uninit_init F d v)⟩
  obtain ⟨k, A, hk⟩ := loop_ranked (P := P) hw I rank L.length
    (fun c => List.length_filter_le _ _) hstep
    (by
      intro s d A hsd hI he
      have hsub := hin A s d hsd hI
      have hne : ∃ v, v ∈ outOf P (at' P A) s d ∧ v ∉ at' P A d := by
        refine Classical.byContradiction (fun hno => ?_)
        have : sameSet (outOf P (at' P A) s d) (at' P A d) = true :=
          sameSet_iff.2 (fun v => ⟨fun h => Classical.byContradiction (fun h' => hno ⟨v, h, h'⟩), hsub v⟩)
        have he' : sameSet (outOf P (at' P A) s d) (at' P A d) = false := he
        rw [this] at he'
        cases he'
      obtain ⟨v, hv, hv'⟩ := hne
      refine hlt L _ _ (fun v h => by simpa using hsub v (by simpa using h)) ⟨v, ?_, by simpa using hv', by simpa using hv⟩
      have := (outOf_iff hw (fun c => v ∈ c) (hQ v) _ hsd).1 hv s hsd
      rcases mem_flow.1 this with h | ⟨_, h⟩
      · obtain ⟨f, hf, hs⟩ := (hw.edge_nodes s d hsd).1
        rw [← h.1]
        exact List.mem_flatMap.2 ⟨f, hf, hs⟩
      · exact hI.1 _ _ h)
    _ _ _ _ (fun s d h => (initSt_wl P [] s d).1 h) hI0 (Nat.le_refl _) (Nat.le_refl _)
  exact ⟨k, finish P A, by unfold solve; rw [hk]; rfl⟩

/-- C68, paths: a reported variable was allocated on every path to the statement and no integer constant has
been stored to it since. -/
theorem C68_paths {F : Func} (hw : WfCfg (uninitProb F)) {k : Nat} {R : AMap Nat (List Nat)}
    (h : solve (uninitProb F) k [] = some R) {n v : Nat} {rest : List Nat} (hp : F.Path (n :: rest))
    (hv : v ∈ getResultsAt (uninitProb F) R n) :
    F.Open (fun m => F.StoresConst m v) v (n :: rest) := by
  have hn : F.Node n := by
    cases hp with
    | start hn _ => exact hn
    | next _ e => exact (hw.edge_nodes _ _ e).2
  exact After.path ((C68_results hw h hn v).1 hv) rest hp

/-- C68, where it is right: in functions that only store integer constants, a reported variable is
uninitialized: on every path to the statement it was allocated and nothing has been stored to it since. -/
theorem C68_uninit_partial {F : Func} (hw : WfCfg (uninitProb F))
    (hc : ∀ m v, F.Stores m v → F.StoresConst m v) {k : Nat} {R : AMap Nat (List Nat)}
    (h : solve (uninitProb F) k [] = some R) {n v : Nat} {rest : List Nat} (hp : F.Path (n :: rest))
    (hv : v ∈ getResultsAt (uninitProb F) R n) :
    F.Open (fun m => F.Stores m v) v (n :: rest) := by
  have := C68_paths hw h hp hv
  generalize n :: rest = l at this
  induction this with
  | alloc h => exact .alloc h
  | keep h _ ih => exact .keep (fun hs => h (hc _ _ hs)) ih

/-- C68, what it finds: in a function without cycles every variable that is allocated on every path, with no
integer constant stored since, is reported. -/
theorem C68_acyclic_partial {F : Func} (hw : WfCfg (uninitProb F)) (rank : Nat → Nat)
    (hr : ∀ s d, F.Edge s d → rank s < rank d) {k : Nat} {R : AMap Nat (List Nat)}
    (h : solve (uninitProb F) k [] = some R) {n v : Nat} (hn : F.Node n) :
    v ∈ getResultsAt (uninitProb F) R n ↔
      ∀ rest, F.Path (n :: rest) → F.Open (fun m => F.StoresConst m v) v (n :: rest) := by
  rw [C68_results hw h hn]
  refine ⟨fun ha => After.path ha, ?_⟩
  intro hall
  have key : ∀ r n, rank n = r → F.Node n →
      (∀ rest, F.Path (n :: rest) → F.Open (fun m => F.StoresConst m v) v (n :: rest)) → F.After v n := by
    intro r
    induction r using Nat.strongRecOn with
    | ind r ih =>
      intro n hrn hn hall
      by_cases halloc : F.Allocates n v
      · exact .alloc halloc
      -- some path leads to every statement
      have hex : ∀ q m, rank m = q → F.Node m → ∃ rest, F.Path (m :: rest) := by
        intro q
        induction q using Nat.strongRecOn with
        | ind q ihq =>
          intro m hm hmn
          by_cases he : ∃ p, F.Edge p m
          · obtain ⟨p, hp⟩ := he
            have := hr _ _ hp
            obtain ⟨rest, hrest⟩ := ihq (rank p) (by omega) p rfl (hw.edge_nodes _ _ hp).1
            exact ⟨_, .next hrest hp⟩
          · exact ⟨[], .start hmn he⟩
      obtain ⟨rest0, h0⟩ := hex _ n rfl hn
      have hk : ¬ F.StoresConst n v := by
        cases hall _ h0 with
        | alloc h => exact absurd h halloc
        | keep h _ => exact h
      by_cases he : ∃ p, F.Edge p n
      · refine .keep hk he ?_
        intro p hp
        have := hr _ _ hp
        refine ih (rank p) (by omega) p rfl (hw.edge_nodes _ _ hp).1 ?_
        intro rest hrest
        cases hall _ (.next hrest hp) with
        | alloc h => exact absurd h halloc
        | keep _ h => exact h
      · cases hall _ (.start hn he) with
        | alloc h => exact absurd h halloc
        | keep _ h => cases h
  exact key _ n rfl hn hall

/-- C68, what it misses: on a cycle that does not allocate the variable it is never reported, whatever happens
before the cycle. -/
theorem C68_cycle {F : Func} (hw : WfCfg (uninitProb F)) {k : Nat} {R : AMap Nat (List Nat)}
    (h : solve (uninitProb F) k [] = some R) {v : Nat} (S : Nat → Prop)
    (hS : ∀ n, S n → ∃ p, S p ∧ F.Edge p n) (ha : ∀ n, S n → ¬ F.Allocates n v) {n : Nat} (hn : S n) :
    v ∉ getResultsAt (uninitProb F) R n := by
  have hnn : F.Node n := by
    obtain ⟨p, _, he⟩ := hS n hn
    exact (hw.edge_nodes _ _ he).2
  rw [C68_results hw h hnn]
  intro hv
  induction hv with
  | alloc h => exact ha _ hn h
  | keep _ _ _ ih =>
    obtain ⟨p, hp, he⟩ := hS _ hn
    exact ih p he hp (hw.edge_nodes _ _ he).1

/-! ### Cases -/

/-- `x` and `y` are allocated, then a branch stores a constant to `x` on one side only; the sides meet at 5. -/
def C68.diamond : Func := C68.fn
  [.alloca true, .alloca true, .other, .store (.lit 1) true 0, .other, .other]
  [(0, 1), (1, 2), (2, 3), (2, 4), (3, 5), (4, 5)]

theorem C68.diamond_wf : WfCfg (uninitProb C68.diamond) := C68.fn_wfU (by decide)

/-- `solve()` returns on it, and after the join reports `y` but not `x`. -/
example : ∃ R, solve (uninitProb C68.diamond) 40 [] = some R ∧
    getResultsAt (uninitProb C68.diamond) R 4 = [0, 1] ∧ getResultsAt (uninitProb C68.diamond) R 3 = [1] ∧
    getResultsAt (uninitProb C68.diamond) R 5 = [1] := ⟨_, by rfl, by decide, by decide, by decide⟩

/-- The hypotheses of `C68_acyclic_partial` and `C68_uninit_partial` on it. -/
example : (∀ s d, C68.diamond.Edge s d → s < d) ∧ ∀ m v, C68.diamond.Stores m v → C68.diamond.StoresConst m v := by
  refine ⟨?_, ?_⟩
  · intro s d h
    rw [C68.diamond, C68.fn_edge] at h
    revert h
    have : ∀ e ∈ [(0, 1), (1, 2), (2, 3), (2, 4), (3, 5), (4, 5)], e.1 < e.2 := by decide
    exact this (s, d)
  · rintro m v ⟨x, b, h⟩
    have hm : m = 3 := by
      match m with
      | 0 | 1 | 2 | 4 | 5 => exact absurd h (by simp [C68.diamond, C68.fn])
      | 3 => rfl
      | m + 6 => exact absurd h (by simp [C68.diamond, C68.fn])
    subst hm
    cases h
    exact ⟨_, rfl, fun k h => (nomatch h)⟩

/-- `x` is allocated, then a loop reads it. -/
def C68.loop : Func := C68.fn [.alloca true, .load 0, .other, .other] [(0, 1), (1, 2), (2, 1), (2, 3)]

theorem C68.loop_wf : WfCfg (uninitProb C68.loop) := C68.fn_wfU (by decide)

/-- The hypotheses of `C68_cycle` on the statements 1 and 2 of `C68.loop`. -/
example : (∀ n, n = 1 ∨ n = 2 → ∃ p, (p = 1 ∨ p = 2) ∧ C68.loop.Edge p n) ∧
    ∀ n, n = 1 ∨ n = 2 → ¬ C68.loop.Allocates n 0 := by
  refine ⟨?_, ?_⟩
  · rintro n (rfl | rfl)
    · exact ⟨2, .inr rfl, C68.fn_edge.2 (by decide)⟩
    · exact ⟨1, .inl rfl, C68.fn_edge.2 (by decide)⟩
  · rintro n (rfl | rfl) ⟨h, _⟩ <;> cases h

/-- C68 does not hold in general, misses: a variable that is uninitialized on every path to a read of it in a
loop is not reported there, nor anywhere after the loop. -/
theorem C68_loop_false : ∃ (F : Func) (R : AMap Nat (List Nat)), WfCfg (uninitProb F) ∧
    solve (uninitProb F) 20 [] = some R ∧ F.inst 1 = .load 0 ∧
    (∀ l, F.Path l → F.Open (fun m => F.Stores m 0) 0 l) ∧
    getResultsAt (uninitProb F) R 1 = [] ∧ getResultsAt (uninitProb F) R 3 = [] := by
  refine ⟨C68.loop, _, C68.loop_wf, by rfl, rfl, ?_, by decide, by decide⟩
  have hns : ∀ m, ¬ C68.loop.Stores m 0 := by
    rintro m ⟨x, b, h⟩
    match m with
    | 0 | 1 | 2 | 3 => exact absurd h (by simp [C68.loop, C68.fn])
    | m + 4 => exact absurd h (by simp [C68.loop, C68.fn])
  intro l hl
  induction hl with
  | @start n hn h =>
    have : n = 0 := by
      rw [C68.loop, C68.fn_node] at hn
      match n, hn with
      | 0, _ => rfl
      | 1, _ => exact absurd ⟨0, C68.fn_edge.2 (by decide)⟩ h
      | 2, _ => exact absurd ⟨1, C68.fn_edge.2 (by decide)⟩ h
      | 3, _ => exact absurd ⟨2, C68.fn_edge.2 (by decide)⟩ h
    subst this
    exact .alloc ⟨rfl, _, rfl⟩
  | next _ _ ih => exact .keep (hns _) ih

/-- C68 does not hold in general, false reports: a variable that is initialized with a value that is not an
integer constant (here an argument; 0 is the variable) is reported as uninitialized where it is read. -/
theorem C68_store_false : ∃ (F : Func) (R : AMap Nat (List Nat)), WfCfg (uninitProb F) ∧
    solve (uninitProb F) 20 [] = some R ∧ F.inst 2 = .load 0 ∧
    (∃ l, F.Path (2 :: l)) ∧ (∀ l, F.Path (2 :: l) → ¬ F.Open (fun m => F.Stores m 0) 0 (2 :: l)) ∧
    0 ∈ getResultsAt (uninitProb F) R 2 := by
  refine ⟨C68.fn [.alloca true, .store (.val 9) true 0, .load 0] [(0, 1), (1, 2)], _, C68.fn_wfU (by decide),
    by rfl, rfl, ⟨[1, 0], ?_⟩, ?_, by decide⟩
  · refine .next (.next (.start (C68.fn_node.2 (by decide)) ?_) (C68.fn_edge.2 (by decide)))
      (C68.fn_edge.2 (by decide))
    rintro ⟨p, hp⟩
    rw [C68.fn_edge] at hp
    simp at hp
  · intro l hl ho
    cases hl with
    | start hn h => exact h ⟨1, C68.fn_edge.2 (by decide)⟩
    | next hp e =>
      rw [C68.fn_edge] at e
      simp only [List.mem_cons, Prod.mk.injEq, List.not_mem_nil, or_false] at e
      rcases e with ⟨_, h⟩ | ⟨rfl, _⟩
      · cases h
      · cases ho with
        | alloc h => cases h.1
        | keep _ ho =>
          cases ho with
          | alloc h => cases h.1
          | keep h _ => exact h ⟨_, _, rfl⟩

/-- C68 does not hold in general, misses: storing `undef` counts as an initialization. -/
theorem C68_undef_false : ∃ (F : Func) (R : AMap Nat (List Nat)), WfCfg (uninitProb F) ∧
    solve (uninitProb F) 20 [] = some R ∧ F.inst 1 = .store .undef true 0 ∧ F.inst 2 = .load 0 ∧
    getResultsAt (uninitProb F) R 0 = [0] ∧ getResultsAt (uninitProb F) R 2 = [] :=
  ⟨C68.fn [.alloca true, .store .undef true 0, .load 0] [(0, 1), (1, 2)], _, C68.fn_wfU (by decide),
    by rfl, rfl, rfl, by decide, by decide⟩

/-- C68 does not hold in general, misses: a variable that is uninitialized on one of two paths to a read is not
reported there. -/
theorem C68_some_path_false : ∃ (F : Func) (R : AMap Nat (List Nat)) (l : List Nat), WfCfg (uninitProb F) ∧
    solve (uninitProb F) 20 [] = some R ∧ F.inst 3 = .load 0 ∧ F.Path (3 :: l) ∧
    F.Open (fun m => F.Stores m 0) 0 (3 :: l) ∧ 0 ∉ getResultsAt (uninitProb F) R 3 := by
  refine ⟨C68.fn [.alloca true, .other, .store (.lit 1) true 0, .load 0] [(0, 1), (1, 2), (1, 3), (2, 3)], _,
    [1, 0], C68.fn_wfU (by decide), by rfl, rfl, ?_, ?_, by decide⟩
  · refine .next (.next (.start (C68.fn_node.2 (by decide)) ?_) (C68.fn_edge.2 (by decide)))
      (C68.fn_edge.2 (by decide))
    rintro ⟨p, hp⟩
    rw [C68.fn_edge] at hp
    simp at hp
  · refine .keep ?_ (.keep ?_ (.alloc ⟨rfl, _, rfl⟩))
    · rintro ⟨_, _, h⟩; cases h
    · rintro ⟨_, _, h⟩; cases h

/-! ## C69: constant propagation -/

/-- C69, results: whenever `solve()` returns there are in-facts such that a statement without predecessors has
none, an entry is in the in-fact of another statement exactly if every predecessor sends it with the same value,
and `getResultsAt(n)` is what the flow function makes of the in-fact of `n`. -/
theorem C69_results {F : Func} (hw : WfCfg (constProb F)) {k : Nat} {R : AMap Nat CMap}
    (h : solve (constProb F) k [] = some R) :
    ∃ X : Nat → CMap,
      (∀ n, (¬ ∃ p, F.Edge p n) → ∀ x, (X n).get x = none) ∧
      (∀ n, (∃ p, F.Edge p n) → ∀ x v, (X n).get x = some v ↔
        ∀ p, F.Edge p n → F.Node p ∧ (getResultsAt (constProb F) R p).get x = some v) ∧
      ∀ n, F.Node n → getResultsAt (constProb F) R n = constFlow F n (X n) := by
  obtain ⟨A, hA, hR⟩ := C23.returned h
  refine ⟨at' (constProb F) A, fun n hn x => const_source hw hA hn x, ?_, hR⟩
  intro n hn x v
  rw [const_at hw hA hn]
  constructor
  · intro h p hp
    have hpn : F.Node p := (hw.edge_nodes _ _ hp).1
    refine ⟨hpn, ?_⟩
    rw [hR p hpn]
    exact h p hp
  · intro h p hp
    have := h p hp
    rw [hR p this.1] at this
    exact this.2

/-- Keys are integer variables and values that are no pointers. -/
theorem C69.kind {F : Func} {ty : Nat → Ty} (ht : Typed F ty) {n : Nat} {inp : CMap}
    (hi : ∀ k v, inp.get k = some v → F.inst k = .alloca true ∨ ty k ≠ .ptr) {k : Nat} {v : V}
    (h : (constFlow F n inp).get k = some v) : F.inst k = .alloca true ∨ ty k ≠ .ptr := by
  by_cases hk : k = n
  · subst hk
    unfold constFlow at h
    cases hn : F.inst k with
    | alloca b =>
      rw [hn] at h
      cases b with
      | true => exact .inl rfl
      | false =>
        simp only [Bool.false_eq_true, if_false] at h
        have := hi _ _ h
        rw [hn] at this
        exact this
    | store v b ptr =>
      have hs : (inp.get k).isSome := by
        have : ∀ x, (storeFlow inp v b ptr).get k = some x → (inp.get k).isSome := by
          intro x hx
          have hset : ∀ y, writable inp ptr = true → (inp.set ptr y).get k = some x → (inp.get k).isSome := by
            intro y hwr hy
            rw [CMap.get_set] at hy
            split at hy
            · rename_i e
              subst e
              unfold writable at hwr
              cases hg : inp.get ptr with
              | none => rw [hg] at hwr; cases hwr
              | some _ => rfl
            · rw [hy]; rfl
          unfold storeFlow at hx
          cases v with
          | lit c =>
            simp only at hx
            split at hx
            · exact hset _ (by assumption) hx
            · rw [hx]; rfl
          | undef => simp only [opdVal] at hx; split at hx <;> (rw [hx]; rfl)
          | val j =>
            simp only at hx
            split at hx
            · cases ho : opdVal inp (.val j) with
              | top => rw [ho] at hx; simp only at hx; rw [hx]; rfl
              | val c =>
                rw [ho] at hx
                simp only at hx
                split at hx
                · exact hset _ (by assumption) hx
                · rw [hx]; rfl
              | bottom =>
                rw [ho] at hx
                simp only at hx
                split at hx
                · exact hset _ (by assumption) hx
                · rw [hx]; rfl
            · rw [hx]; rfl
        rw [hn] at h
        exact this _ h
      cases hg : inp.get k with
      | none => rw [hg] at hs; cases hs
      | some x =>
        have := hi _ _ hg
        rw [hn] at this
        exact this
    | load ptr =>
      rw [hn] at h
      simp only at h
      cases hg : inp.get ptr with
      | none =>
        rw [hg] at h
        have := hi _ _ h
        rw [hn] at this
        exact this
      | some x =>
        rcases hi _ _ hg with h1 | h1
        · right; rw [(ht.load _ _ hn).2 h1]; simp
        · exact absurd (ht.load _ _ hn).1 h1
    | bin op l r => exact .inr (ht.bin _ _ _ _ hn).1
    | other =>
      rw [hn] at h
      have := hi _ _ h
      rw [hn] at this
      exact this
  · have := constFlow_key (F := F) (inp := inp) hk
    rw [h] at this
    cases hg : inp.get k with
    | none => rw [hg] at this; cases this
    | some x => exact hi _ _ hg

/-- The value an operand has in the analysis is the value it has in the run. -/
theorem C69.opd {F : Func} {E : Env} {s : State} {inp : CMap} {ty : Nat → Ty} (ht : Typed F ty)
    (hi : ∀ k c, inp.get k = some (.val c) → Holds F E s k c) {o : Opd}
    (ho : ∀ k, o = .val k → ty k ≠ .ptr) {c d : BitVec 64}
    (h : opdVal inp o = .val c) (hd : OpdIs s o d) : d = c := by
  cases o with
  | lit x => cases h; exact hd
  | undef => cases h
  | val k =>
    simp only [opdVal] at h
    cases hg : inp.get k with
    | none => rw [hg] at h; cases h
    | some v =>
      rw [hg] at h
      simp only at h
      subst h
      have := hi _ _ hg
      unfold Holds at this
      cases hk : F.inst k with
      | alloca b => exact absurd (ht.alloca _ _ hk) (ho k rfl)
      | store _ _ _ => rw [hk] at this; exact hd.trans this
      | load _ => rw [hk] at this; exact hd.trans this
      | bin _ _ _ => rw [hk] at this; exact hd.trans this
      | other => rw [hk] at this; exact hd.trans this

theorem C69.holds_alloca {F : Func} {E : Env} {s : State} {k : Nat} {c : BitVec 64} {b : Bool}
    (hk : F.inst k = .alloca b) : Holds F E s k c ↔ s.mem (E.addr k) = c := by
  unfold Holds; rw [hk]

theorem C69.holds_reg {F : Func} {E : Env} {s : State} {k : Nat} {c : BitVec 64}
    (hk : ∀ b, F.inst k ≠ .alloca b) : Holds F E s k c ↔ s.reg k = c := by
  unfold Holds
  split
  · rename_i b h; exact absurd h (hk b)
  · exact Iff.rfl

/-- One statement: if the entries of the in-fact describe the state before, those of the out-fact describe the
state after. -/
theorem C69.step {F : Func} {E : Env} {ty : Nat → Ty} (ht : Typed F ty) (hu : Unaliased F E) {n : Nat}
    {s t : State} {inp : CMap} (hkind : ∀ k v, inp.get k = some v → F.inst k = .alloca true ∨ ty k ≠ .ptr)
    (hi : ∀ k c, inp.get k = some (.val c) → Holds F E s k c) (hr : InRange F E n s)
    (hnew : inp.get n = none)
    (hkn : ∀ v b ptr, F.inst n = .store v b ptr → inp.get ptr ≠ none →
      b = true ∧ ((∃ c, v = .lit c) ∨ ∃ k x, v = .val k ∧ inp.get k = some x ∧ x ≠ .top))
    (hst : Step F E n s t) {k : Nat} {c : BitVec 64} (h : (constFlow F n inp).get k = some (.val c)) :
    Holds F E t k c := by
  -- an entry of the in-fact that the statement leaves alone
  have keep : inp.get k = some (.val c) → (∀ b, F.inst k = .alloca b → t.mem (E.addr k) = s.mem (E.addr k)) →
      ((∀ b, F.inst k ≠ .alloca b) → t.reg k = s.reg k) → Holds F E t k c := by
    intro hg hm hreg
    have := hi k c hg
    by_cases ha : ∃ b, F.inst k = .alloca b
    · obtain ⟨b, ha⟩ := ha
      rw [C69.holds_alloca ha] at this ⊢
      rw [hm b ha]; exact this
    · have ha' : ∀ b, F.inst k ≠ .alloca b := fun b hb => ha ⟨b, hb⟩
      rw [C69.holds_reg ha'] at this ⊢
      rw [hreg ha']; exact this
  have isInt : ∀ {v b}, inp.get k = some v → F.inst k = .alloca b → F.inst k = .alloca true := by
    intro v b hg hb
    rcases hkind _ _ hg with h | h
    · exact h
    · exact absurd (ht.alloca _ _ hb) h
  cases hst with
  | alloca b hn hreg hm =>
    unfold constFlow at h
    rw [hn] at h
    have hg : inp.get k = some (.val c) := by
      cases b with
      | false => exact h
      | true =>
        simp only [if_true, CMap.get_insert] at h
        cases hg : inp.get k with
        | some x => rw [hg] at h; exact h
        | none =>
          rw [hg] at h
          simp only at h
          split at h <;> cases h
    refine keep hg ?_ (fun _ => by rw [hreg])
    intro b' hb'
    apply hm
    intro he
    have := hu.alloca n b k hn (isInt hg hb') he.symm
    subst this
    rw [hnew] at hg
    cases hg
  | store v ptr hn hreg hv hm =>
    unfold constFlow at h
    rw [hn] at h
    simp only at h
    -- the entry is old, or it is the one of the variable stored to
    have hold : inp.get k = some (.val c) → k ≠ ptr → Holds F E t k c := by
      intro hg hne
      refine keep hg ?_ (fun _ => by rw [hreg])
      intro b hb
      apply hm
      intro he
      exact hne (hu.store n v true ptr k hn (isInt hg hb) he.symm).symm
    by_cases hp : inp.get ptr = none
    · have hwr : writable inp ptr = false := by unfold writable; rw [hp]
      have : (storeFlow inp v true ptr) = inp := by
        unfold storeFlow
        rw [hwr]
        cases v with
        | lit c => rfl
        | undef => rfl
        | val j =>
          simp only [if_true, Bool.false_eq_true, if_false]
          cases opdVal inp (.val j) <;> rfl
      rw [this] at h
      refine hold h ?_
      rintro rfl
      rw [hp] at h
      cases h
    · have halloc : F.inst ptr = .alloca true := by
        cases hg : inp.get ptr with
        | none => exact absurd hg hp
        | some x =>
          rcases hkind _ _ hg with h | h
          · exact h
          · exact absurd (ht.store _ _ _ _ hn).1 h
      have hbot : ∀ {x}, inp.get ptr = some x → writable inp ptr = false → x = .bottom := by
        intro x hg hwr
        unfold writable at hwr
        rw [hg] at hwr
        cases x with
        | bottom => rfl
        | top => cases hwr
        | val c => cases hwr
      have hset : ∀ x : V, (∀ d, x = .val d → t.mem (E.addr ptr) = d) →
          (if writable inp ptr then inp.set ptr x else inp).get k = some (.val c) → Holds F E t k c := by
        intro x hx hh
        by_cases hwr : writable inp ptr = true
        · rw [if_pos hwr, CMap.get_set] at hh
          split at hh
          · rename_i e
            subst e
            rw [C69.holds_alloca halloc]
            exact hx c (Option.some.inj hh)
          · exact hold hh (fun e => (by assumption : ¬ ptr = k) e.symm)
        · rw [if_neg hwr] at hh
          refine hold hh ?_
          rintro rfl
          cases hbot hh (by simpa using hwr)
      rcases (hkn _ _ _ hn hp).2 with ⟨d, rfl⟩ | ⟨j, x, rfl, hj, hx⟩
      · refine hset (.val d) ?_ h
        intro d' e; cases e; exact hv
      · have hov : opdVal inp (.val j) = x := by simp only [opdVal]; rw [hj]
        have hty : ty j = .int := ((ht.store _ _ _ _ hn).2 j rfl).1 rfl
        unfold storeFlow at h
        simp only [if_true] at h
        rw [hov] at h
        cases x with
        | top => exact absurd rfl hx
        | val d =>
          refine hset (.val d) ?_ h
          intro d' e
          cases e
          exact C69.opd ht hi (o := .val j) (by intro k e; cases e; rw [hty]; simp) hov hv
        | bottom =>
          refine hset .bottom ?_ h
          intro d' e; cases e
  | blur v ptr hn hreg hm =>
    have hp : inp.get ptr = none := by
      refine Classical.byContradiction (fun hp => ?_)
      have := (hkn _ _ _ hn hp).1
      cases this
    unfold constFlow at h
    rw [hn] at h
    have hwr : writable inp ptr = false := by unfold writable; rw [hp]
    have : (storeFlow inp v false ptr) = inp := by
      unfold storeFlow
      rw [hwr]
      cases v <;> rfl
    simp only at h
    rw [this] at h
    refine keep h ?_ (fun _ => by rw [hreg])
    intro b hb
    apply hm
    intro he
    have := hu.store n v false ptr k hn (isInt h hb) he.symm
    subst this
    rw [hp] at h
    cases h
  | load ptr hn hval hreg hm =>
    unfold constFlow at h
    rw [hn] at h
    simp only at h
    have hk : ∀ b, F.inst n ≠ .alloca b := by intro b hb; rw [hn] at hb; cases hb
    have hold : inp.get k = some (.val c) → k ≠ n → Holds F E t k c := fun hg hne =>
      keep hg (fun _ _ => by rw [hm]) (fun _ => hreg k hne)
    cases hg : inp.get ptr with
    | none =>
      rw [hg] at h
      refine hold h ?_
      rintro rfl
      rw [hnew] at h
      cases h
    | some x =>
      rw [hg] at h
      simp only [CMap.get_set] at h
      split at h
      · rename_i e
        subst e
        cases h
        rw [C69.holds_reg hk, hval]
        have halloc : F.inst ptr = .alloca true := by
          rcases hkind _ _ hg with h | h
          · exact h
          · exact absurd (ht.load _ _ hn).1 h
        exact (C69.holds_alloca halloc).1 (hi _ _ hg)
      · rename_i e; exact hold h (fun e' => e e'.symm)
  | bin op l r a b hn hl hrr hval hreg hm =>
    unfold constFlow at h
    rw [hn] at h
    simp only at h
    have hk : ∀ b, F.inst n ≠ .alloca b := by intro b hb; rw [hn] at hb; cases hb
    have hold : inp.get k = some (.val c) → k ≠ n → Holds F E t k c := fun hg hne =>
      keep hg (fun _ _ => by rw [hm]) (fun _ => hreg k hne)
    have hset : ∀ x : V, (∀ d, x = .val d → t.reg n = d) → (inp.set n x).get k = some (.val c) →
        Holds F E t k c := by
      intro x hx hh
      rw [CMap.get_set] at hh
      split at hh
      · rename_i e
        subst e
        rw [C69.holds_reg hk]
        exact hx c (Option.some.inj hh)
      · rename_i e; exact hold hh (fun e' => e e'.symm)
    have hbot : (inp.set n .bottom).get k = some (.val c) → Holds F E t k c :=
      hset .bottom (fun d e => (nomatch e))
    unfold binFlow at h
    cases hlv : opdVal inp l with
    | top => rw [hlv] at h; exact hbot h
    | bottom => rw [hlv] at h; exact hbot h
    | val a' =>
      rw [hlv] at h
      cases hrv : opdVal inp r with
      | top => rw [hrv] at h; exact hbot h
      | bottom => rw [hrv] at h; exact hbot h
      | val b' =>
        rw [hrv] at h
        have ea := C69.opd ht hi (fun k e => (ht.bin _ _ _ _ hn).2 k (.inl e)) hlv hl
        have eb := C69.opd ht hi (fun k e => (ht.bin _ _ _ _ hn).2 k (.inr e)) hrv hrr
        subst ea eb
        refine hset _ ?_ h
        intro d hd
        rcases hr op l r hn with rfl | ⟨h1, h2, h3⟩
        · cases hd
        · obtain ⟨fa, fb, x, hx, fx⟩ := h3 a b hl hrr
          rw [bin_agree h1 h2 fa fb hx fx hval] at hd
          exact LatticeDomain.val.inj hd
  | other hn hreg hm =>
    unfold constFlow at h
    rw [hn] at h
    simp only at h
    refine keep h ?_ (fun _ => hreg k ?_)
    · intro b hb
      exact hm _ (hu.writes n k (isInt h hb))
    · rintro rfl
      rw [hnew] at h
      cases h

/-- What is known about the in-facts of the results along runs. -/
theorem C69.along {F : Func} {E : Env} {ok : Nat → State → Prop} {X : Nat → CMap}
    (hsrc : ∀ n ∈ F.starts, ∀ x, (X n).get x = none)
    (hin : ∀ m n, F.Edge m n → ∀ x v, (X n).get x = some v → (constFlow F m (X m)).get x = some v)
    {l : List Nat} {t : State} (hrun : Run F E ok l t) :
    ∀ n rest, l = n :: rest → ∀ x, (X n).get x ≠ none → x ∈ rest := by
  induction hrun with
  | start hn _ _ =>
    rintro n rest e x hx
    cases e
    exact absurd (hsrc _ hn x) hx
  | @next n m rest s t r he _ _ ih =>
    rintro n' rest' e x hx
    cases e
    cases hg : (X n).get x with
    | none => exact absurd hg hx
    | some v =>
      have h1 := hin m n he x v hg
      by_cases hxm : x = m
      · subst hxm; simp
      · have h2 := constFlow_key (F := F) (inp := X m) hxm
        rw [h1] at h2
        refine List.mem_cons_of_mem _ (ih m rest rfl x ?_)
        intro h3
        rw [h3] at h2
        cases h2

/-- A part of a run. -/
theorem C69.suffix {F : Func} {E : Env} {ok : Nat → State → Prop} {l : List Nat} {t : State}
    (hrun : Run F E ok l t) : ∀ n, n ∈ l → ∃ rest t', Run F E ok (n :: rest) t' ∧ rest.length < l.length := by
  induction hrun with
  | start hn ho h =>
    intro n hm
    simp only [List.mem_singleton] at hm
    subst hm
    exact ⟨[], _, .start hn ho h, by simp⟩
  | next r he ho h ih =>
    intro n' hm
    rcases List.mem_cons.1 hm with rfl | hm
    · exact ⟨_, _, .next r he ho h, by simp⟩
    · obtain ⟨rest, t', h1, h2⟩ := ih n' hm
      exact ⟨rest, t', h1, Nat.lt_of_lt_of_le h2 (by simp)⟩

/-- No statement that is reached has an entry for itself in its in-fact. -/
theorem C69.fresh {F : Func} {E : Env} {ok : Nat → State → Prop} {X : Nat → CMap}
    (hsrc : ∀ n ∈ F.starts, ∀ x, (X n).get x = none)
    (hin : ∀ m n, F.Edge m n → ∀ x v, (X n).get x = some v → (constFlow F m (X m)).get x = some v)
    {n : Nat} : ∀ (q : Nat) (rest : List Nat) (t : State), rest.length ≤ q → Run F E ok (n :: rest) t →
      (X n).get n = none := by
  intro q
  induction q with
  | zero =>
    intro rest t hq hrun
    refine Classical.byContradiction (fun hx => ?_)
    have := C69.along hsrc hin hrun n rest rfl n hx
    rw [List.length_eq_zero_iff.1 (Nat.le_zero.1 hq)] at this
    cases this
  | succ q ih =>
    intro rest t hq hrun
    refine Classical.byContradiction (fun hx => ?_)
    have hm := C69.along hsrc hin hrun n rest rfl n hx
    cases hrun with
    | start _ _ _ => cases hm
    | next r _ _ _ =>
      obtain ⟨rest', t', h1, h2⟩ := C69.suffix r n hm
      exact hx (ih rest' t' (by omega) h1)

/-- C69, where it is right: in a function whose operands have the right types, whose integer variables are
written only through their allocas and only with values that the results know about, every run in which signed
arithmetic stays in range has the values the results state: the variables after the last statement contain, and
the registers hold, the constants reported there. -/
theorem C69_sound_partial {F : Func} {E : Env} {ty : Nat → Ty} (hw : WfCfg (constProb F))
    (hs : ∀ n ∈ F.starts, F.Node n ∧ ¬ ∃ p, F.Edge p n) (ht : Typed F ty) (hu : Unaliased F E) {k : Nat}
    {R : AMap Nat CMap} (h : solve (constProb F) k [] = some R)
    (hk : Known F (getResultsAt (constProb F) R)) {n : Nat} {rest : List Nat} {t : State}
    (hrun : Run F E (InRange F E) (n :: rest) t) {x : Nat} {c : BitVec 64}
    (hx : (getResultsAt (constProb F) R n).get x = some (.val c)) : Holds F E t x c := by
  obtain ⟨X, h1, h2, h3⟩ := C69_results hw h
  have hsrc : ∀ n ∈ F.starts, ∀ x, (X n).get x = none := fun n hn => h1 n (hs n hn).2
  have hin : ∀ m n, F.Edge m n → ∀ x v, (X n).get x = some v → (constFlow F m (X m)).get x = some v := by
    intro m n he x v hv
    have := ((h2 n ⟨m, he⟩ x v).1 hv) m he
    rw [← h3 m this.1]
    exact this.2
  -- keys of in-facts that are reached
  have hnode : ∀ {l t}, Run F E (InRange F E) l t → ∀ n rest, l = n :: rest → F.Node n := by
    intro l t hr n rest e
    subst e
    cases hr with
    | start hn _ _ => exact (hs _ hn).1
    | next _ he _ _ => exact (hw.edge_nodes _ _ he).2
  -- the conditions on stores, for the in-fact
  have hkn : ∀ n, F.Node n → ∀ v b ptr, F.inst n = .store v b ptr → (X n).get ptr ≠ none →
      b = true ∧ ((∃ c, v = .lit c) ∨ ∃ k x, v = .val k ∧ (X n).get k = some x ∧ x ≠ .top) := by
    intro n hn v b ptr hi hp
    have hp' : (getResultsAt (constProb F) R n).get ptr ≠ none := by
      rw [h3 n hn]
      intro hnone
      by_cases e : ptr = n
      · subst e
        unfold constFlow at hnone
        rw [hi] at hnone
        simp only at hnone
        have := ht.store _ _ _ _ hi
        unfold storeFlow at hnone
        cases v with
        | lit c =>
          simp only at hnone
          split at hnone
          · rw [CMap.get_set, if_pos rfl] at hnone; cases hnone
          · exact hp hnone
        | undef => simp only [opdVal] at hnone; split at hnone <;> exact hp hnone
        | val j =>
          simp only at hnone
          split at hnone
          · cases ho : opdVal (X ptr) (.val j) <;> rw [ho] at hnone <;> simp only at hnone
            · exact hp hnone
            · split at hnone
              · rw [CMap.get_set, if_pos rfl] at hnone; cases hnone
              · exact hp hnone
            · split at hnone
              · rw [CMap.get_set, if_pos rfl] at hnone; cases hnone
              · exact hp hnone
          · exact hp hnone
      · have := constFlow_key (F := F) (inp := X n) e
        rw [hnone] at this
        cases hg : (X n).get ptr with
        | none => exact hp hg
        | some _ => rw [hg] at this; cases this
    obtain ⟨hb, hv⟩ := hk n v b ptr hi hp'
    refine ⟨hb, ?_⟩
    rcases hv with hv | ⟨j, x, rfl, hj, hx⟩
    · exact .inl hv
    · refine .inr ⟨j, x, rfl, ?_, hx⟩
      have hjp : ptr ≠ j := by
        rintro rfl
        have := ht.store _ _ _ _ hi
        rw [(this.2 ptr rfl).1 hb] at this
        cases this.1
      rw [h3 n hn] at hj
      unfold constFlow at hj
      rw [hi] at hj
      simp only [storeFlow] at hj
      subst hb
      simp only [if_true] at hj
      cases ho : opdVal (X n) (.val j) <;> rw [ho] at hj <;> simp only at hj
      · exact hj
      · split at hj
        · rw [CMap.get_set, if_neg hjp] at hj; exact hj
        · exact hj
      · split at hj
        · rw [CMap.get_set, if_neg hjp] at hj; exact hj
        · exact hj
  have key : ∀ {l t}, Run F E (InRange F E) l t → ∀ n rest, l = n :: rest →
      (∀ k v, (constFlow F n (X n)).get k = some v → F.inst k = .alloca true ∨ ty k ≠ .ptr) ∧
      ∀ x c, (constFlow F n (X n)).get x = some (.val c) → Holds F E t x c := by
    intro l t hr
    induction hr with
    | @start n s t hn ho hst =>
      rintro n' rest e
      cases e
      have hnone := hsrc n hn
      refine ⟨fun k v hv => C69.kind ht (fun k v h => by rw [hnone] at h; cases h) hv, ?_⟩
      intro x c hv
      exact C69.step ht hu (fun k v h => by rw [hnone] at h; cases h)
        (fun k v h => by rw [hnone] at h; cases h) ho (hnone n)
        (hkn n (hs n hn).1) hst hv
    | @next n m rest s t r he ho hst ih =>
      rintro n' rest' e
      cases e
      obtain ⟨i1, i2⟩ := ih m rest rfl
      have hkind : ∀ k v, (X n).get k = some v → F.inst k = .alloca true ∨ ty k ≠ .ptr :=
        fun k v h => i1 k v (hin m n he k v h)
      refine ⟨fun k v hv => C69.kind ht hkind hv, ?_⟩
      intro x c hv
      exact C69.step ht hu hkind (fun k c h => i2 k c (hin m n he k _ h)) ho
        (C69.fresh hsrc hin _ _ _ (Nat.le_refl _) (.next r he ho hst))
        (hkn n (hw.edge_nodes _ _ he).2) hst hv
  rw [h3 n (hnode hrun n rest rfl)] at hx
  exact (key hrun n rest rfl).2 x c hx

/-- C69, what it misses: on a cycle that does not contain the instruction, its value is never known. -/
theorem C69_cycle {F : Func} (hw : WfCfg (constProb F)) {k : Nat} {R : AMap Nat CMap}
    (h : solve (constProb F) k [] = some R) {x : Nat} (S : Nat → Prop)
    (hS : ∀ n, S n → ∃ p, S p ∧ F.Edge p n) (hx : ¬ S x) {n : Nat} (hn : S n) :
    (getResultsAt (constProb F) R n).get x = none := by
  obtain ⟨A, hA, hR⟩ := C23.returned h
  have hnn : F.Node n := by
    obtain ⟨p, _, he⟩ := hS n hn
    exact (hw.edge_nodes _ _ he).2
  have hinv : ∀ n, S n → (at' (constProb F) A n).get x = none := by
    refine at_inv (P := constProb F) hw (fun n c => S n → c.get x = none)
      (fun n _ => const_init F n x) ?_ hA
    intro a s d hsd ha hd
    obtain ⟨p, hp, he⟩ := hS d hd
    cases hg : (outOf (constProb F) a s d).get x with
    | none => rfl
    | some v =>
      have := (outOf_iff (P := constProb F) hw (fun c => c.get x = some v)
        (fun a b => CMap.get_merge a b x v) a hsd).1 hg p he
      have h2 := constFlow_key (F := F) (k := x) (n := p) (inp := a p) (fun e => hx (e ▸ hp))
      have this' : (constFlow F p (a p)).get x = some v := this
      rw [this', ha p hp] at h2
      cases h2
  rw [hR n hnn]
  have h2 := constFlow_key (F := F) (k := x) (n := n) (inp := at' (constProb F) A n) (fun e => hx (e ▸ hn))
  rw [hinv n hn] at h2
  cases hg : (constFlow F n (at' (constProb F) A n)).get x with
  | none => exact hg
  | some v => rw [hg] at h2; cases h2

/-! ### The flow function -/

/-- Specification: an operand whose value is known. -/
def C69.Const (inp : CMap) (o : Opd) (a : BitVec 64) : Prop :=
  o = .lit a ∨ ∃ j, o = .val j ∧ inp.get j = some (.val a)

theorem C69.const_iff {inp : CMap} {o : Opd} {a : BitVec 64} : opdVal inp o = .val a ↔ C69.Const inp o a := by
  unfold C69.Const
  cases o with
  | lit c => simp [opdVal]
  | undef => simp [opdVal]
  | val k =>
    simp only [opdVal]
    cases h : inp.get k with
    | none => simp [h]
    | some v => simp [h]

/-- C69, allocas: a new integer variable is `Top`; everything else stays. -/
theorem C69_alloca {F : Func} {n : Nat} {b : Bool} (h : F.inst n = .alloca b) (inp : CMap) (k : Nat) :
    (constFlow F n inp).get k =
      if k = n ∧ b = true ∧ inp.get n = none then some .top else inp.get k := by
  unfold constFlow
  rw [h]
  cases b with
  | false => simp
  | true =>
    simp only [if_true, CMap.get_insert, true_and]
    by_cases e : k = n
    · subst e
      cases hg : inp.get k <;> simp
    · have : ¬ n = k := fun h => e h.symm
      cases hg : inp.get k <;> simp [e, this]

/-- C69, loads: a load takes over what is known about the variable; everything else stays. -/
theorem C69_load {F : Func} {n ptr : Nat} (h : F.inst n = .load ptr) (inp : CMap) (k : Nat) :
    (constFlow F n inp).get k = if k = n ∧ inp.get ptr ≠ none then inp.get ptr else inp.get k := by
  unfold constFlow
  rw [h]
  simp only
  cases hg : inp.get ptr with
  | none => simp
  | some v =>
    simp only [CMap.get_set]
    by_cases e : k = n
    · subst e; simp
    · have : ¬ n = k := fun h => e h.symm
      simp [e, this]

/-- C69, stores: only the entry of the pointer operand can change, and only if it exists and is not `Bottom`: it
becomes the literal, or what is known about the integer stored unless that is nothing or `Top`. -/
theorem C69_store {F : Func} {n ptr : Nat} {v : Opd} {b : Bool} (h : F.inst n = .store v b ptr) (inp : CMap) :
    (∀ k, k ≠ ptr → (constFlow F n inp).get k = inp.get k) ∧
    (inp.get ptr = none ∨ inp.get ptr = some .bottom → (constFlow F n inp).get ptr = inp.get ptr) ∧
    ∀ x, inp.get ptr = some x → x ≠ .bottom →
      (∀ c, v = .lit c → (constFlow F n inp).get ptr = some (.val c)) ∧
      (∀ j y, v = .val j → b = true → inp.get j = some y → y ≠ .top →
        (constFlow F n inp).get ptr = some y) ∧
      ((∀ c, v ≠ .lit c) → (b = false ∨ ∀ j y, v = .val j → inp.get j = some y → y = .top) →
        (constFlow F n inp).get ptr = some x) := by
  have hf : constFlow F n inp = storeFlow inp v b ptr := by unfold constFlow; rw [h]
  rw [hf]
  have hwn : inp.get ptr = none ∨ inp.get ptr = some .bottom → writable inp ptr = false := by
    rintro (h | h) <;> (unfold writable; rw [h])
  have hws : ∀ x, inp.get ptr = some x → x ≠ .bottom → writable inp ptr = true := by
    intro x hx hb
    unfold writable
    rw [hx]
    cases x with
    | bottom => exact absurd rfl hb
    | top => rfl
    | val c => rfl
  -- the shape of the result
  have hshape : storeFlow inp v b ptr = inp ∨ (writable inp ptr = true ∧ ∃ x, storeFlow inp v b ptr = inp.set ptr x) := by
    unfold storeFlow
    cases v with
    | lit c =>
      simp only
      split
      · exact .inr ⟨by assumption, _, rfl⟩
      · exact .inl rfl
    | undef => simp only [opdVal]; split <;> exact .inl rfl
    | val j =>
      simp only
      split
      · cases opdVal inp (.val j) with
        | top => exact .inl rfl
        | val c =>
          simp only
          split
          · exact .inr ⟨by assumption, _, rfl⟩
          · exact .inl rfl
        | bottom =>
          simp only
          split
          · exact .inr ⟨by assumption, _, rfl⟩
          · exact .inl rfl
      · exact .inl rfl
  refine ⟨?_, ?_, ?_⟩
  · intro k hk
    have hk' : ¬ ptr = k := fun h => hk h.symm
    rcases hshape with h | ⟨_, x, h⟩
    · rw [h]
    · rw [h, CMap.get_set, if_neg hk']
  · intro hp
    rcases hshape with h | ⟨h, _⟩
    · rw [h]
    · rw [hwn hp] at h; cases h
  · intro x hx hb
    have hwr := hws x hx hb
    refine ⟨?_, ?_, ?_⟩
    · rintro c rfl
      simp [storeFlow, hwr, CMap.get_set]
    · rintro j y rfl rfl hj hy
      have ho : opdVal inp (.val j) = y := by simp only [opdVal]; rw [hj]
      unfold storeFlow
      simp only [if_true]
      rw [ho, hwr]
      cases y with
      | top => exact absurd rfl hy
      | val c => simp [CMap.get_set]
      | bottom => simp [CMap.get_set]
    · intro hl hj
      have : storeFlow inp v b ptr = inp := by
        unfold storeFlow
        cases v with
        | lit c => exact absurd rfl (hl c)
        | undef => simp only [opdVal]; split <;> rfl
        | val j =>
          simp only
          rcases hj with rfl | hj
          · rfl
          · have ho : opdVal inp (.val j) = .top := by
              simp only [opdVal]
              cases hg : inp.get j with
              | none => rfl
              | some y => exact hj j y rfl hg
            rw [ho]
            split <;> rfl
      rw [this]; exact hx

/-- C69, binary operators: only the entry of the instruction changes.  If both operands are known it becomes the
exact signed result modulo 2^64, where unsigned division and remainder are taken as signed; for other opcodes, for
division by zero and if an operand is not known it becomes `Bottom`. -/
theorem C69_bin {F : Func} {n : Nat} {op : BinOp} {l r : Opd} (h : F.inst n = .bin op l r) (inp : CMap) :
    (∀ k, k ≠ n → (constFlow F n inp).get k = inp.get k) ∧
    (∀ a b, C69.Const inp l a → C69.Const inp r b →
      (op = .add → (constFlow F n inp).get n = some (.val (.ofInt 64 (a.toInt + b.toInt)))) ∧
      (op = .sub → (constFlow F n inp).get n = some (.val (.ofInt 64 (a.toInt - b.toInt)))) ∧
      (op = .mul → (constFlow F n inp).get n = some (.val (.ofInt 64 (a.toInt * b.toInt)))) ∧
      (op = .sdiv ∨ op = .udiv → b ≠ 0 →
        (constFlow F n inp).get n = some (.val (.ofInt 64 (a.toInt.tdiv b.toInt)))) ∧
      (op = .srem ∨ op = .urem → b ≠ 0 →
        (constFlow F n inp).get n = some (.val (.ofInt 64 (a.toInt.tmod b.toInt)))) ∧
      (op = .other ∨ (op = .sdiv ∨ op = .udiv ∨ op = .srem ∨ op = .urem) ∧ b = 0 →
        (constFlow F n inp).get n = some .bottom)) ∧
    ((∀ a, ¬ C69.Const inp l a) ∨ (∀ b, ¬ C69.Const inp r b) → (constFlow F n inp).get n = some .bottom) := by
  have hf : constFlow F n inp = binFlow inp n op l r := by unfold constFlow; rw [h]
  rw [hf]
  refine ⟨?_, ?_, ?_⟩
  · intro k hk
    have hk' : ¬ n = k := fun h => hk h.symm
    unfold binFlow
    split <;> rw [CMap.get_set, if_neg hk']
  · intro a b ha hb
    have he : (binFlow inp n op l r).get n = some (execBin op a b) := by
      unfold binFlow
      rw [C69.const_iff.2 ha, C69.const_iff.2 hb]
      simp only [CMap.get_set, if_true]
    rw [he]
    refine ⟨?_, ?_, ?_, ?_, ?_, ?_⟩
    · rintro rfl
      simp only [execBin]
      congr 2
      apply BitVec.eq_of_toInt_eq
      rw [BitVec.toInt_add, BitVec.toInt_ofInt]
    · rintro rfl
      simp only [execBin]
      congr 2
      apply BitVec.eq_of_toInt_eq
      rw [BitVec.toInt_sub, BitVec.toInt_ofInt]
    · rintro rfl
      simp only [execBin]
      congr 2
      apply BitVec.eq_of_toInt_eq
      rw [BitVec.toInt_mul, BitVec.toInt_ofInt]
    · intro ho hb0
      have e : a.sdiv b = .ofInt 64 (a.toInt.tdiv b.toInt) := by
        apply BitVec.eq_of_toInt_eq
        rw [BitVec.toInt_sdiv, BitVec.toInt_ofInt]
      rcases ho with rfl | rfl <;> simp only [execBin, ne_eq, hb0, not_false_eq_true, if_true, e]
    · intro ho hb0
      have e : a.srem b = .ofInt 64 (a.toInt.tmod b.toInt) := by
        rw [← BitVec.toInt_srem, BitVec.ofInt_toInt]
      rcases ho with rfl | rfl <;> simp only [execBin, ne_eq, hb0, not_false_eq_true, if_true, e]
    · rintro (rfl | ⟨rfl | rfl | rfl | rfl, rfl⟩) <;> simp [execBin]
  · intro hno
    unfold binFlow
    cases hl : opdVal inp l with
    | top => simp only [CMap.get_set, if_true]
    | bottom => simp only [CMap.get_set, if_true]
    | val a =>
      cases hr : opdVal inp r with
      | top => simp only [CMap.get_set, if_true]
      | bottom => simp only [CMap.get_set, if_true]
      | val b =>
        rcases hno with h | h
        · exact absurd (C69.const_iff.1 hl) (h a)
        · exact absurd (C69.const_iff.1 hr) (h b)

/-- C69, other instructions change nothing. -/
theorem C69_other {F : Func} {n : Nat} (h : F.inst n = .other) (inp : CMap) : constFlow F n inp = inp := by
  unfold constFlow; rw [h]

/-! ### Cases -/

/-- The entry `getResultsAt` has for a key. -/
def C69.entry (F : Func) (k n x : Nat) : Option (Option V) :=
  (solve (constProb F) k []).map (fun R => (getResultsAt (constProb F) R n).get x)

theorem C69.of_entry {F : Func} {k n x : Nat} {v : Option V} (h : C69.entry F k n x = some v) :
    ∃ R, solve (constProb F) k [] = some R ∧ (getResultsAt (constProb F) R n).get x = v := by
  unfold C69.entry at h
  cases hs : solve (constProb F) k [] with
  | none => rw [hs] at h; cases h
  | some R => rw [hs] at h; exact ⟨R, rfl, Option.some.inj h⟩

/-- Pointers are their own addresses, all operators have 64 bits, calls write nothing. -/
def C69.env : Env := ⟨id, fun _ => 64, fun _ => []⟩

/-- A state in tables. -/
def C69.st (reg mem : List (Nat × BitVec 64)) : State :=
  ⟨fun k => (AMap.get reg k).getD 0, fun k => (AMap.get mem k).getD 0⟩

/-- `x = 6; y = x * 7` with both read back: 0 and 1 are the variables. -/
def C69.line : Func := C68.fn
  [.alloca true, .alloca true, .store (.lit 6) true 0, .load 0, .bin .mul (.val 3) (.lit 7),
    .store (.val 4) true 1, .load 1]
  [(0, 1), (1, 2), (2, 3), (3, 4), (4, 5), (5, 6)]

/-- The analysis finds 42 for the variable and the load. -/
example : C69.entry C69.line 40 6 1 = some (some (.val 42)) ∧ C69.entry C69.line 40 6 6 = some (some (.val 42)) ∧
    C69.entry C69.line 40 1 0 = some (some .top) := by decide +kernel

/-- Types for the functions below: 0 and 1 are variables, 9 is a pointer, everything else is an integer. -/
def C69.ty (k : Nat) : Ty := if k = 0 ∨ k = 1 ∨ k = 9 then .ptr else .int

theorem C69.line_typed : Typed C69.line C69.ty := by
  refine ⟨?_, ?_, ?_, ?_⟩
  · intro n b h
    rcases n with _ | _ | _ | _ | _ | _ | _ | n <;> first | rfl | cases h
  · intro n v b ptr h
    rcases n with _ | _ | _ | _ | _ | _ | _ | n <;> cases h
    · exact ⟨rfl, fun k e => (nomatch e)⟩
    · exact ⟨rfl, fun k e => by cases e; decide⟩
  · intro n ptr h
    rcases n with _ | _ | _ | _ | _ | _ | _ | n <;> cases h
    · exact ⟨rfl, fun _ => rfl⟩
    · exact ⟨rfl, fun _ => rfl⟩
  · intro n op l r h
    rcases n with _ | _ | _ | _ | _ | _ | _ | n <;> cases h
    refine ⟨by decide, ?_⟩
    rintro k (e | e) <;> cases e
    decide

theorem C69.line_unaliased : Unaliased C69.line C69.env :=
  ⟨fun _ _ _ _ _ e => e, fun _ _ _ _ _ _ _ e => e, fun _ _ _ h => (nomatch h)⟩

theorem C69.line_known {R : AMap Nat CMap} (h : solve (constProb C69.line) 40 [] = some R) :
    Known C69.line (getResultsAt (constProb C69.line) R) := by
  intro n v b ptr hi _
  rcases n with _ | _ | _ | _ | _ | _ | _ | n <;> cases hi
  · exact ⟨rfl, .inl ⟨_, rfl⟩⟩
  · refine ⟨rfl, .inr ⟨4, .val 42, rfl, ?_, by decide⟩⟩
    have : C69.entry C69.line 40 5 4 = some (some (.val 42)) := by decide +kernel
    unfold C69.entry at this
    rw [h] at this
    exact Option.some.inj this

/-- A run of it. -/
theorem C69.line_run : Run C69.line C69.env (InRange C69.line C69.env) [6, 5, 4, 3, 2, 1, 0]
    (C69.st [(3, 6), (4, 42), (6, 42)] [(0, 6), (1, 42)]) := by
  have hno : ∀ n s, (∀ op l r, C69.line.inst n ≠ .bin op l r) → InRange C69.line C69.env n s :=
    fun n s h op l r e => absurd e (h op l r)
  have hed : ∀ n, n < 6 → C69.line.Edge n (n + 1) := by
    intro n hn
    rw [C69.line, C68.fn_edge]
    revert n
    decide
  have h0 : Run C69.line C69.env (InRange C69.line C69.env) [0] (C69.st [] []) :=
    .start (by decide) (hno _ (C69.st [] []) (fun _ _ _ e => by cases e)) (.alloca true rfl rfl (fun _ _ => rfl))
  have h1 := h0.next (hed 0 (by decide)) (hno _ _ (fun _ _ _ e => by cases e))
    (t := C69.st [] []) (.alloca true rfl rfl (fun _ _ => rfl))
  have h2 := h1.next (hed 1 (by decide)) (hno _ _ (fun _ _ _ e => by cases e))
    (t := C69.st [] [(0, 6)]) (.store (.lit 6) 0 rfl rfl rfl
      (fun a ha => by
        have ha' : ¬ 0 = a := fun h => ha h.symm
        simp [C69.st, AMap.get, ha']))
  have h3 := h2.next (hed 2 (by decide)) (hno _ _ (fun _ _ _ e => by cases e))
    (t := C69.st [(3, 6)] [(0, 6)]) (.load 0 rfl rfl
      (fun k hk => by
        have hk' : ¬ 3 = k := fun h => hk h.symm
        simp [C69.st, AMap.get, hk']) rfl)
  have h4 := h3.next (hed 3 (by decide)) (t := C69.st [(3, 6), (4, 42)] [(0, 6)])
    (by
      intro op l r e
      cases e
      refine .inr ⟨by decide, by decide, ?_⟩
      intro a b ha hb
      cases ha
      cases hb
      refine ⟨⟨by decide, by decide⟩, ⟨by decide, by decide⟩, 42, by decide, by decide, by decide⟩)
    (.bin .mul (.val 3) (.lit 7) 6 7 rfl rfl rfl (by show _ = norm 64 (6 * 7); decide)
      (fun k hk => by
        have hk' : ¬ 4 = k := fun h => hk h.symm
        simp [C69.st, AMap.get, hk']) rfl)
  have h5 := h4.next (hed 4 (by decide)) (hno _ _ (fun _ _ _ e => by cases e))
    (t := C69.st [(3, 6), (4, 42)] [(0, 6), (1, 42)]) (.store (.val 4) 1 rfl rfl rfl
      (fun a ha => by
        have ha' : ¬ 1 = a := fun h => ha h.symm
        simp [C69.st, AMap.get, ha']))
  exact h5.next (hed 5 (by decide)) (hno _ _ (fun _ _ _ e => by cases e)) (.load 1 rfl rfl
      (fun k hk => by
        have hk' : ¬ 6 = k := fun h => hk h.symm
        simp [C69.st, AMap.get, hk']) rfl)

/-- `C69_sound_partial` on it: the run has 42 in the variable 1, as reported. -/
example : ∃ R, solve (constProb C69.line) 40 [] = some R ∧
    (getResultsAt (constProb C69.line) R 6).get 1 = some (.val 42) ∧
    Holds C69.line C69.env (C69.st [(3, 6), (4, 42), (6, 42)] [(0, 6), (1, 42)]) 1 42 := by
  obtain ⟨R, h, hx⟩ := C69.of_entry (show C69.entry C69.line 40 6 1 = some (some (.val 42)) by decide +kernel)
  refine ⟨R, h, hx, C69_sound_partial (C68.fn_wfC (by decide)) ?_ C69.line_typed C69.line_unaliased h
    (C69.line_known h) C69.line_run hx⟩
  intro n hn
  cases List.mem_singleton.1 hn
  refine ⟨C68.fn_node.2 (by decide), ?_⟩
  rintro ⟨p, hp⟩
  rw [C68.fn_edge] at hp
  simp at hp

/-- Specification: the results state a constant for `x` after `n` that some run does not have there. -/
def C69.Wrong (F : Func) (E : Env) (ok : Nat → State → Prop) (n x : Nat) : Prop :=
  ∃ k R c rest t, solve (constProb F) k [] = some R ∧ (getResultsAt (constProb F) R n).get x = some (.val c) ∧
    Run F E ok (n :: rest) t ∧ ¬ Holds F E t x c

theorem C69.wrong {F : Func} {E : Env} {ok : Nat → State → Prop} {n x k : Nat} {c : BitVec 64} {rest : List Nat}
    {t : State} (h : C69.entry F k n x = some (some (.val c))) (hr : Run F E ok (n :: rest) t)
    (hx : ¬ Holds F E t x c) : C69.Wrong F E ok n x := by
  obtain ⟨R, h1, h2⟩ := C69.of_entry h
  exact ⟨k, R, c, rest, t, h1, h2, hr, hx⟩

/-- `x = 5; x = input(); use(x)`. -/
def C69.unknown : Func := C68.fn
  [.alloca true, .store (.lit 5) true 0, .other, .store (.val 2) true 0, .load 0] [(0, 1), (1, 2), (2, 3), (3, 4)]

/-- C69 does not hold in general: storing a value the analysis knows nothing about leaves the old constant, which
is then reported for the variable and for what is read from it. -/
theorem C69_store_false : WfCfg (constProb C69.unknown) ∧ Unaliased C69.unknown C69.env ∧
    C69.Wrong C69.unknown C69.env (InRange C69.unknown C69.env) 4 0 ∧
    C69.Wrong C69.unknown C69.env (InRange C69.unknown C69.env) 4 4 := by
  refine ⟨C68.fn_wfC (by decide), ⟨fun _ _ _ _ _ e => e, fun _ _ _ _ _ _ _ e => e, fun _ _ _ h => (nomatch h)⟩, ?_⟩
  have hno : ∀ n s, InRange C69.unknown C69.env n s := by
    intro n s op l r e
    rcases n with _ | _ | _ | _ | _ | n <;> cases e
  have hed : ∀ n, n < 4 → C69.unknown.Edge n (n + 1) := by
    intro n hn
    rw [C69.unknown, C68.fn_edge]
    revert n
    decide
  have h0 : Run C69.unknown C69.env (InRange C69.unknown C69.env) [0] (C69.st [] []) :=
    .start (by decide) (hno _ (C69.st [] [])) (.alloca true rfl rfl (fun _ _ => rfl))
  have h1 := h0.next (hed 0 (by decide)) (hno _ _) (t := C69.st [] [(0, 5)]) (.store (.lit 5) 0 rfl rfl rfl
      (fun a ha => by
        have ha' : ¬ 0 = a := fun h => ha h.symm
        simp [C69.st, AMap.get, ha']))
  have h2 := h1.next (hed 1 (by decide)) (hno _ _) (t := C69.st [(2, 7)] [(0, 5)]) (.other rfl
      (fun k hk => by
        have hk' : ¬ 2 = k := fun h => hk h.symm
        simp [C69.st, AMap.get, hk']) (fun _ _ => rfl))
  have h3 := h2.next (hed 2 (by decide)) (hno _ _) (t := C69.st [(2, 7)] [(0, 7)]) (.store (.val 2) 0 rfl rfl rfl
      (fun a ha => by
        have ha' : ¬ 0 = a := fun h => ha h.symm
        simp [C69.st, AMap.get, ha']))
  have h4 := h3.next (hed 3 (by decide)) (hno _ _) (t := C69.st [(2, 7), (4, 7)] [(0, 7)]) (.load 0 rfl rfl
      (fun k hk => by
        have hk' : ¬ 4 = k := fun h => hk h.symm
        simp [C69.st, AMap.get, hk']) rfl)
  refine ⟨C69.wrong (k := 40) (c := 5) (by decide +kernel) h4 ?_, C69.wrong (k := 40) (c := 5) (by decide +kernel) h4 ?_⟩
  · show ¬ ((7 : BitVec 64) = 5); decide
  · show ¬ ((7 : BitVec 64) = 5); decide

/-- `x = 5; *p = 7` or a call that writes to `x`, then `x` is read. -/
def C69.indirect (i : Inst) : Func := C68.fn
  [.alloca true, .store (.lit 5) true 0, i, .load 0] [(0, 1), (1, 2), (2, 3)]

/-- C69 does not hold in general: stores through other pointers are not seen.  The pointer 9 holds the address of
the variable. -/
theorem C69_alias_false : WfCfg (constProb (C69.indirect (.store (.lit 7) true 9))) ∧
    C69.Wrong (C69.indirect (.store (.lit 7) true 9)) ⟨fun k => if k = 9 then 0 else k, fun _ => 64, fun _ => []⟩
      (InRange (C69.indirect (.store (.lit 7) true 9)) ⟨fun k => if k = 9 then 0 else k, fun _ => 64, fun _ => []⟩)
      3 3 := by
  refine ⟨C68.fn_wfC (by decide), ?_⟩
  generalize hE : (⟨fun k => if k = 9 then 0 else k, fun _ => 64, fun _ => []⟩ : Env) = E
  generalize hF : C69.indirect (.store (.lit 7) true 9) = F
  have hno : ∀ n s, InRange F E n s := by
    subst hF
    intro n s op l r e
    rcases n with _ | _ | _ | _ | n <;> cases e
  have hed : ∀ n, n < 3 → F.Edge n (n + 1) := by
    subst hF
    intro n hn
    rw [C69.indirect, C68.fn_edge]
    revert n
    decide
  subst hF hE
  have h0 := Run.start (F := C69.indirect (.store (.lit 7) true 9))
    (E := ⟨fun k => if k = 9 then 0 else k, fun _ => 64, fun _ => []⟩) (n := 0) (by decide) (hno 0 (C69.st [] []))
    (t := C69.st [] []) (.alloca true rfl rfl (fun _ _ => rfl))
  have h1 := h0.next (hed 0 (by decide)) (hno _ _) (t := C69.st [] [(0, 5)]) (.store (.lit 5) 0 rfl rfl rfl
      (fun a ha => by
        have ha' : ¬ 0 = a := fun h => ha h.symm
        simp [C69.st, AMap.get, ha']))
  have h2 := h1.next (hed 1 (by decide)) (hno _ _) (t := C69.st [] [(0, 7)]) (.store (.lit 7) 9 rfl rfl rfl
      (fun a ha => by
        have ha' : ¬ 0 = a := fun h => ha h.symm
        simp [C69.st, AMap.get, ha']))
  have h3 := h2.next (hed 2 (by decide)) (hno _ _) (t := C69.st [(3, 7)] [(0, 7)]) (.load 0 rfl rfl
      (fun k hk => by
        have hk' : ¬ 3 = k := fun h => hk h.symm
        simp [C69.st, AMap.get, hk']) rfl)
  refine C69.wrong (k := 40) (c := 5) (by decide +kernel) h3 ?_
  show ¬ ((7 : BitVec 64) = 5); decide

/-- C69 does not hold in general: what calls write is not seen.  Statement 2 is a call that writes to the
variable. -/
theorem C69_call_false : WfCfg (constProb (C69.indirect .other)) ∧
    C69.Wrong (C69.indirect .other) ⟨id, fun _ => 64, fun _ => [0]⟩
      (InRange (C69.indirect .other) ⟨id, fun _ => 64, fun _ => [0]⟩) 3 3 := by
  refine ⟨C68.fn_wfC (by decide), ?_⟩
  generalize hE : (⟨id, fun _ => 64, fun _ => [0]⟩ : Env) = E
  generalize hF : C69.indirect .other = F
  have hno : ∀ n s, InRange F E n s := by
    subst hF
    intro n s op l r e
    rcases n with _ | _ | _ | _ | n <;> cases e
  have hed : ∀ n, n < 3 → F.Edge n (n + 1) := by
    subst hF
    intro n hn
    rw [C69.indirect, C68.fn_edge]
    revert n
    decide
  subst hF hE
  have h0 := Run.start (F := C69.indirect .other) (E := ⟨id, fun _ => 64, fun _ => [0]⟩) (n := 0) (by decide) (hno 0 (C69.st [] []))
    (t := C69.st [] []) (.alloca true rfl rfl (fun _ _ => rfl))
  have h1 := h0.next (hed 0 (by decide)) (hno _ _) (t := C69.st [] [(0, 5)]) (.store (.lit 5) 0 rfl rfl rfl
      (fun a ha => by
        have ha' : ¬ 0 = a := fun h => ha h.symm
        simp [C69.st, AMap.get, ha']))
  have h2 := h1.next (hed 1 (by decide)) (hno _ _) (t := C69.st [] [(0, 7)]) (.other rfl (fun _ _ => rfl)
      (fun a ha => by
        have ha' : ¬ 0 = a := fun h => ha (by rw [← h]; exact List.mem_singleton.2 rfl)
        simp [C69.st, AMap.get, ha']))
  have h3 := h2.next (hed 2 (by decide)) (hno _ _) (t := C69.st [(3, 7)] [(0, 7)]) (.load 0 rfl rfl
      (fun k hk => by
        have hk' : ¬ 3 = k := fun h => hk h.symm
        simp [C69.st, AMap.get, hk']) rfl)
  refine C69.wrong (k := 40) (c := 5) (by decide +kernel) h3 ?_
  show ¬ ((7 : BitVec 64) = 5); decide

/-- One operator on literals. -/
def C69.arith (op : BinOp) (a b : BitVec 64) : Func := C68.fn [.bin op (.lit a) (.lit b)] []

/-- The operator's result where the analysis states another. -/
theorem C69.arith_wrong {op : BinOp} {a b c d : BitVec 64} {w : Nat} (h : execBin op a b = .val c)
    (hb : BinIs op w a b d) (hne : d ≠ c) :
    C69.Wrong (C69.arith op a b) ⟨id, fun _ => w, fun _ => []⟩ (fun _ _ => True) 0 0 := by
  have h0 := Run.start (F := C69.arith op a b) (E := ⟨id, fun _ => w, fun _ => []⟩) (ok := fun _ _ => True)
    (n := 0) (s := C69.st [] []) (List.mem_singleton.2 rfl) trivial (t := C69.st [(0, d)] [])
    (.bin op (.lit a) (.lit b) a b rfl rfl rfl hb
      (fun k hk => by
        have hk' : ¬ 0 = k := fun h => hk h.symm
        simp [C69.st, AMap.get, hk']) rfl)
  refine C69.wrong (k := 1) (c := c) ?_ h0 ?_
  · show some (some (execBin op a b)) = _
    rw [h]
  · exact hne

/-- C69 does not hold in general: arithmetic does not wrap at the width of the type.  For the 32-bit addition
2147483647 + 1 the analysis states 2147483648, the operator gives -2147483648. -/
theorem C69_width_false : C69.Wrong (C69.arith .add 2147483647 1) ⟨id, fun _ => 32, fun _ => []⟩
    (fun _ _ => True) 0 0 :=
  C69.arith_wrong (c := 2147483648) (d := -2147483648) (by decide) (by show _ = norm 32 _; decide) (by decide)

/-- C69 does not hold in general: unsigned division and remainder are computed as signed ones.  For -2 / 2 as an
unsigned 64-bit division the analysis states -1, the operator gives 2^63 - 1; for -2 % 3 it states -2, the
operator gives 2. -/
theorem C69_unsigned_false :
    C69.Wrong (C69.arith .udiv (-2) 2) ⟨id, fun _ => 64, fun _ => []⟩ (fun _ _ => True) 0 0 ∧
    C69.Wrong (C69.arith .urem (-2) 3) ⟨id, fun _ => 64, fun _ => []⟩ (fun _ _ => True) 0 0 :=
  ⟨C69.arith_wrong (c := -1) (d := 0x7fffffffffffffff) (by decide) ⟨by decide, by decide⟩ (by decide),
   C69.arith_wrong (c := -2) (d := 2) (by decide) ⟨by decide, by decide⟩ (by decide)⟩

/-- C69 does not hold in general, precision: a constant stored before a loop that does not write the variable is
not known in the loop nor after it. -/
theorem C69_loop_false : ∃ R, solve (constProb (C68.fn [.alloca true, .store (.lit 5) true 0, .load 0, .other]
      [(0, 1), (1, 2), (2, 3), (3, 2)])) 40 [] = some R ∧
    (getResultsAt (constProb (C68.fn [.alloca true, .store (.lit 5) true 0, .load 0, .other]
      [(0, 1), (1, 2), (2, 3), (3, 2)])) R 1).get 0 = some (.val 5) ∧
    (getResultsAt (constProb (C68.fn [.alloca true, .store (.lit 5) true 0, .load 0, .other]
      [(0, 1), (1, 2), (2, 3), (3, 2)])) R 2).get 0 = none ∧
    (getResultsAt (constProb (C68.fn [.alloca true, .store (.lit 5) true 0, .load 0, .other]
      [(0, 1), (1, 2), (2, 3), (3, 2)])) R 2).get 2 = none :=
  ⟨_, by rfl, by decide +kernel, by decide +kernel, by decide +kernel⟩

/-- The hypotheses of `C69_cycle` on that loop, the statements 2 and 3. -/
example : ∀ n, n = 2 ∨ n = 3 → ∃ p, (p = 2 ∨ p = 3) ∧
    (C68.fn [.alloca true, .store (.lit 5) true 0, .load 0, .other] [(0, 1), (1, 2), (2, 3), (3, 2)]).Edge p n := by
  rintro n (rfl | rfl)
  · exact ⟨3, .inr rfl, C68.fn_edge.2 (by decide)⟩
  · exact ⟨2, .inl rfl, C68.fn_edge.2 (by decide)⟩

/-- C69 does not hold in general, precision: once a variable is `Bottom`, a constant stored to it is not
known. -/
theorem C69_bottom_false : ∃ R, solve (constProb (C68.fn [.alloca true, .bin .add (.val 7) (.lit 1),
      .store (.val 1) true 0, .store (.lit 5) true 0] [(0, 1), (1, 2), (2, 3)])) 40 [] = some R ∧
    (getResultsAt (constProb (C68.fn [.alloca true, .bin .add (.val 7) (.lit 1),
      .store (.val 1) true 0, .store (.lit 5) true 0] [(0, 1), (1, 2), (2, 3)])) R 3).get 0 = some .bottom :=
  ⟨_, by rfl, by decide +kernel⟩

end Phasar
