import Verif.Analysis.SecureHeap
/-!
# The secure heap propagation: runs of the problem and executions of the program
-/
set_option linter.unusedSectionVars false
set_option linter.unusedSimpArgs false
namespace Phasar.SecureHeap
open Phasar JoinLat IDE Prog

/-- The edge functions that occur. -/
inductive Small : Edge → Prop
  | id : Small .id
  | ini : Small (.const .initialized)
  | bot : Small (.const .bot)
  | all : Small .allBottom

/-- The edge functions that occur between two facts. -/
inductive Between : Fact → Fact → Edge → Prop
  | zz : Between .zero .zero .id
  | zi : Between .zero .initialized (.const .initialized)
  | zb : Between .zero .initialized (.const .bot)
  | za : Between .zero .initialized .allBottom
  | ii : Between .initialized .initialized .id
  | ib : Between .initialized .initialized (.const .bot)
  | ia : Between .initialized .initialized .allBottom

variable (c : EFCfg Empty Value) (lt : Edge → Edge → Bool)

theorem small_compose {f g : Edge} (hf : Small f) (hg : Small g) :
    Small (EF.compose c f g) ∧ ∀ x, EF.ap c (EF.compose c f g) x = EF.ap c g (EF.ap c f x) := by
  cases hf <;> cases hg <;>
    simp [EF.compose, EF.defaultComposeOrNull, EF.isConstant, EF.ap] <;> constructor

theorem small_join {f g : Edge} (hf : Small f) (hg : Small g) : Small (EF.joinWith c lt f g) := by
  cases hs : c.soo <;> cases hf <;> cases hg <;>
    simp [EF.joinWith, EF.joinConst, EF.defaultJoinOrNull, EF.isConstant, EF.ap, JoinLat.join, Value.join, JoinLat.bottom, hs] <;>
    constructor

theorem small_join_ge {f g : Edge} (hf : Small f) (hg : Small g) (x : Value) :
    EF.ap c f x ⊑ EF.ap c (EF.joinWith c lt f g) x ∧ EF.ap c g x ⊑ EF.ap c (EF.joinWith c lt f g) x := by
  cases hs : c.soo <;> cases hf <;> cases hg <;>
    simp [EF.joinWith, EF.joinConst, EF.defaultJoinOrNull, EF.isConstant, EF.ap, JoinLat.join, Value.join, JoinLat.bottom, hs] <;>
    cases x <;> decide

theorem alg_small : (EF.alg c lt).Sound Small where
  ok_id := .id
  ok_extend := fun _ _ hf hg => (small_compose c hf hg).1
  ok_combine := fun _ _ hf hg => small_join c lt hf hg
  ok_first := fun f hf => by simpa [EF.alg, EF.joinWith] using hf
  not_top := by intro f hf; cases hf <;> rfl
  eq_sound := by
    intro f g _ _ h x
    rw [of_decide_eq_true (p := f = g) h]
  ap_id := fun x => le_refl x
  mono := by
    intro f hf x y _ h
    cases hf
    · exact h
    · exact le_refl _
    · exact le_refl _
    · exact le_refl _
  extend_ge := fun _ _ hf hg x => le_of_eq ((small_compose c hf hg).2 x).symm
  combine_ge_left := fun _ _ hf hg x => (small_join_ge c lt hf hg x).1
  combine_ge_right := fun _ _ hf hg x => (small_join_ge c lt hf hg x).2
  first_ge := fun f _ x => by simpa [EF.alg, EF.joinWith] using le_refl (EF.ap c f x)

theorem Between.small {d d' : Fact} {f : Edge} (h : Between d d' f) : Small f := by cases h <;> constructor

theorem alg_between : (EF.alg c lt).ExactFor Between where
  ok_id := by intro d; cases d <;> constructor
  ok_extend := by
    intro d1 d2 d3 f g hf hg
    cases hf <;> cases hg <;>
      simp [EF.alg, EF.compose, EF.defaultComposeOrNull, EF.isConstant] <;> constructor
  ok_combine := by
    intro d1 d2 f g hf hg
    cases hs : c.soo <;> cases hf <;> cases hg <;>
      simp [EF.alg, EF.joinWith, EF.joinConst, EF.defaultJoinOrNull, EF.isConstant, EF.ap, JoinLat.join, Value.join,
        JoinLat.bottom, hs] <;> constructor
  ok_first := fun d1 d2 f hf => by simpa [EF.alg, EF.joinWith] using hf
  ap_id := fun _ => rfl
  extend_eq := fun _ _ _ _ _ hf hg x => (small_compose c hf.small hg.small).2 x
  combine_eq := by
    intro d1 d2 f g hf hg x
    cases hs : c.soo <;> cases hf <;> cases hg <;>
      simp [EF.alg, EF.joinWith, EF.joinConst, EF.defaultJoinOrNull, EF.isConstant, EF.ap, JoinLat.join, Value.join,
        JoinLat.bottom, hs] <;> cases x <;> rfl
  first_eq := fun d1 d2 f hf x => by simp [EF.alg, EF.joinWith]
  distrib := by
    intro d1 d2 f hf x y
    cases hf <;> cases x <;> cases y <;> rfl

/-- How often an edge function can still change. -/
def rankE : Edge → Nat
  | .allBottom => 0
  | _ => 1

theorem alg_finite : (EF.alg c lt).FiniteHeight Small rankE 1 where
  first := by intro f hf; cases hf <;> simp [EF.alg, EF.joinWith, rankE]
  next := by
    intro e f he hf
    cases hs : c.soo <;> cases he <;> cases hf <;>
      simp [EF.alg, EF.joinWith, EF.joinConst, EF.defaultJoinOrNull, EF.isConstant, EF.ap, JoinLat.join, Value.join,
        JoinLat.bottom, hs, rankE]

/-- How often a value can still change. -/
def rankL : Value → Nat
  | .top => 2
  | .initialized => 1
  | .bot => 0

theorem value_finite : FiniteHeightL Value rankL := by
  intro a b; cases a <;> cases b <;> decide

/-! ## The problem -/

variable {p : Prog}

theorem mem_ctr {n : Nat} {d d' : Fact} : d' ∈ p.callToRetFlow n d ↔
    d' = d ∨ (p.callsNamed n initializerFn = true ∧ d = .zero ∧ d' = .initialized) := by
  unfold callToRetFlow
  cases p.callsNamed n initializerFn <;> cases d <;> cases d' <;> simp [generateFromZero, identityFlow]

theorem ctr_between {n : Nat} {d d' : Fact} (h : d' ∈ p.callToRetFlow n d) : Between d d' (p.callToRetEdge n d d') := by
  rw [mem_ctr] at h
  unfold callToRetEdge
  rcases h with rfl | ⟨_, rfl, rfl⟩
  · cases d'
    · simp; exact .zz
    · cases p.callsNamed n shutdownFn <;> simp <;> constructor
  · simp; exact .zi

theorem okEdgesFor : (p.problem c lt).OkEdgesFor Between where
  normal := by intro n d n' d' _ _ h; cases List.mem_singleton.1 h; exact (alg_between c lt).ok_id d
  call := by intro n d n' d' _ _ h; cases List.mem_singleton.1 h; exact (alg_between c lt).ok_id d
  ret := by intro _ _ _ d _ d' _ _ _ _ h; cases List.mem_singleton.1 h; exact (alg_between c lt).ok_id d
  ctr := fun n d r d' _ _ h => ctr_between h
  sum := by intro _ _ _ _ _ _ h; cases h
  unbal := fun h => by cases h

theorem okEdges : (p.problem c lt).OkEdges Small where
  normal := by intro n d n' d' _ h; cases List.mem_singleton.1 h; exact ((alg_between c lt).ok_id d).small
  call := by intro n d n' d' _ h; cases List.mem_singleton.1 h; exact ((alg_between c lt).ok_id d).small
  ret := by intro _ _ _ d _ d' _ h; cases List.mem_singleton.1 h; exact ((alg_between c lt).ok_id d).small
  ctr := fun _ _ _ _ _ h => (ctr_between h).small
  sum := by intro _ _ _ _ _ _ h; cases h

theorem isSeed_iff {n : Nat} {d : Fact} {v : Value} : IsSeed (p.problem c lt) n d v ↔
    (∃ f ∈ p.entries, n ∈ p.icf.starts f) ∧ d = .zero ∧ v = .bot := by
  constructor
  · rintro ⟨facts, hf, hs⟩
    obtain ⟨sp, hsp, he⟩ := List.mem_map.1 (show _ ∈ p.seeds from hf)
    cases he
    obtain ⟨f, h1, h2⟩ := List.mem_flatMap.1 hsp
    refine ⟨⟨f, h1, h2⟩, ?_⟩
    rcases hs with hs | ⟨rfl, rfl, _⟩
    · cases List.mem_singleton.1 hs; exact ⟨rfl, rfl⟩
    · exact ⟨rfl, rfl⟩
  · rintro ⟨⟨f, h1, h2⟩, rfl, rfl⟩
    exact ⟨_, List.mem_map.2 ⟨n, List.mem_flatMap.2 ⟨f, h1, h2⟩, rfl⟩, .inl (List.mem_singleton.2 rfl)⟩

theorem noTop : (p.problem c lt).NoTop Small where
  seed := by
    intro n d v h
    rw [((isSeed_iff c lt).1 h).2.2]
    decide
  ap := by
    intro f hf x hx
    cases hf
    · exact hx
    · show Value.initialized ≠ Value.top; decide
    · show Value.bot ≠ Value.top; decide
    · show Value.bot ≠ Value.top; decide

theorem seedsAtStart (wf : p.WF) : SeedsAtStart (p.problem c lt) := by
  intro n facts h
  obtain ⟨sp, hsp, he⟩ := List.mem_map.1 (show _ ∈ p.seeds from h)
  cases he
  obtain ⟨f, h1, h2⟩ := List.mem_flatMap.1 hsp
  show n ∈ p.icf.starts (p.icf.funOf n)
  rw [wf.icf.start_fun _ _ h2]; exact h2

theorem noSummary : SummariesDisjoint (p.problem c lt) := fun _ _ _ _ h => by cases h

/-! ## Traces -/

theorem shut_append {tr l : List Ev} (h : ShutAfterInit tr) : ShutAfterInit (tr ++ l) := by
  obtain ⟨a, b, c, rfl⟩ := h
  exact ⟨a, b, c ++ l, by simp⟩

theorem shut_done {tr : List Ev} (h : Ev.init ∈ tr) : ShutAfterInit (tr ++ [.done]) := by
  obtain ⟨a, b, rfl⟩ := List.append_of_mem h
  exact ⟨a, b, [], by simp⟩

theorem init_of_shut {tr : List Ev} (h : ShutAfterInit tr) : Ev.init ∈ tr := by
  obtain ⟨a, b, c, rfl⟩ := h
  simp

theorem shut_snoc {tr : List Ev} {a : Ev} : ShutAfterInit (tr ++ [a]) ↔ ShutAfterInit tr ∨ (a = .done ∧ Ev.init ∈ tr) := by
  constructor
  · rintro ⟨x, y, z, h⟩
    rcases List.eq_nil_or_concat z with rfl | ⟨z', b, rfl⟩
    · right
      rw [show x ++ Ev.init :: (y ++ [Ev.done]) = (x ++ Ev.init :: y) ++ [Ev.done] by simp] at h
      obtain ⟨h1, h2⟩ := List.append_inj' h rfl
      cases h2
      exact ⟨rfl, by rw [h1]; simp⟩
    · left
      rw [List.concat_eq_append, show x ++ Ev.init :: (y ++ Ev.done :: (z' ++ [b])) = (x ++ Ev.init :: (y ++ Ev.done :: z')) ++ [b] by simp] at h
      obtain ⟨h1, _⟩ := List.append_inj' h rfl
      exact ⟨x, y, z', h1⟩
  · rintro (h | ⟨rfl, h⟩)
    · exact shut_append h
    · exact shut_done h

theorem heap_snoc (tr : List Ev) (a : Ev) : heap (tr ++ [a]) = (heap tr).step a := by
  simp [heap, List.foldl_append]

/-- What the state of the heap says about the past. -/
theorem heap_past (tr : List Ev) : (heap tr = .never ↔ Ev.init ∉ tr) ∧ (heap tr = .down → ShutAfterInit tr) := by
  have : ∀ r : List Ev, (heap r.reverse = .never ↔ Ev.init ∉ r.reverse) ∧ (heap r.reverse = .down → ShutAfterInit r.reverse) := by
    intro r
    induction r with
    | nil => exact ⟨by simp [heap], by simp [heap]⟩
    | cons a r ih =>
      rw [List.reverse_cons, heap_snoc, shut_snoc]
      obtain ⟨ih1, ih2⟩ := ih
      cases a
      · simp [Heap.step]
      · cases hh : heap r.reverse <;> rw [hh] at ih1 ih2 <;> simp [Heap.step] at ih1 ih2 ⊢
        · exact ih1
        · exact ⟨ih1, .inr ih1⟩
        · exact ⟨ih1, .inl ih2⟩
  have h := this tr.reverse
  rwa [List.reverse_reverse] at h

/-! ## Runs and executions -/

theorem callsNamed_iff {n : Nat} {nm : String} : p.callsNamed n nm = true ↔ ∃ f, p.direct n = some f ∧ p.name f = nm := by
  unfold callsNamed
  cases p.direct n with
  | none => simp
  | some f => simp

theorem names_ne : shutdownFn ≠ initializerFn := by decide

theorem evOf_init {f : Nat} : p.evOf f = [.init] ↔ p.name f = initializerFn := by
  unfold evOf; split
  · simp [*]
  · split <;> simp [*, names_ne]

theorem evOf_done {f : Nat} : p.evOf f = [.done] ↔ p.name f = shutdownFn := by
  unfold evOf; split
  · rename_i h; rw [h]; simp [names_ne.symm]
  · split <;> simp [*]

theorem evOf_cases (p : Prog) (f : Nat) : p.evOf f = [] ∨ p.evOf f = [.init] ∨ p.evOf f = [.done] := by
  unfold evOf; split
  · simp
  · split <;> simp

/-- What a run that arrives at fact `d` with value `v` says about what has happened. -/
def Tells (d : Fact) (v : Value) (tr : List Ev) : Prop :=
  match d with
  | .zero => v = .bot
  | .initialized => Ev.init ∈ tr ∧ (v = .initialized ∨ (v = .bot ∧ ShutAfterInit tr))

theorem exec_of_run (wf : p.WF) (hdir : p.DirectOnly) {n0 : Nat} {a : Cfg Nat Fact Value}
    (h : RSteps (p.problem c lt) ⟨[], n0, .zero, .bot⟩ a) :
    ∃ tr, p.Steps true ⟨[], n0, []⟩ ⟨a.stk, a.n, tr⟩ ∧ Tells a.d a.v tr := by
  induction h with
  | refl => exact ⟨[], .refl _, rfl⟩
  | @tail b e h1 h2 ih =>
    obtain ⟨tr, ht, hd⟩ := ih
    cases h2 with
    | normal h3 h4 h5 => cases List.mem_singleton.1 h5; exact ⟨tr, .tail ht (.normal h3 h4), hd⟩
    | call h3 h4 _ h5 h6 => cases List.mem_singleton.1 h6; exact ⟨tr, .tail ht (.enter h3 h4 h5), hd⟩
    | ret h3 h4 h5 h6 => cases List.mem_singleton.1 h6; exact ⟨tr, .tail ht (.ret h3 h4 h5), hd⟩
    | summary _ _ h => cases h
    | @callToRet stk n d v r d' h3 h4 h5 =>
      have h5' := mem_ctr.1 (show d' ∈ p.callToRetFlow n d from h5)
      -- the step of the program
      have key : ∀ f, p.direct n = some f → p.evOf f ≠ [] → p.Steps true ⟨[], n0, []⟩ ⟨stk, r, tr ++ p.evOf f⟩ := by
        intro f hf hne
        exact .tail ht (.ext h3 (by rw [wf.direct _ _ hf]; exact List.mem_singleton.2 rfl) (wf.decl _ hne) h4)
      by_cases hi : p.callsNamed n initializerFn = true
      · obtain ⟨f, hf, hnm⟩ := callsNamed_iff.1 hi
        have he := evOf_init.2 hnm
        have hk := key f hf (by rw [he]; simp)
        rw [he] at hk
        have hsd : p.callsNamed n shutdownFn = false := by
          cases hx : p.callsNamed n shutdownFn with
          | false => rfl
          | true =>
            obtain ⟨f', hf', hnm'⟩ := callsNamed_iff.1 hx
            rw [hf] at hf'; cases hf'
            rw [hnm] at hnm'; exact absurd hnm'.symm names_ne
        refine ⟨_, hk, ?_⟩
        rcases h5' with rfl | ⟨_, rfl, rfl⟩
        · show Tells d' (EF.ap c (p.callToRetEdge n d' d') v) _
          cases d' with
          | zero => simpa [callToRetEdge, EF.ap, Tells] using hd
          | initialized =>
            simp only [callToRetEdge, hsd, EF.ap]
            simp only [Tells] at hd ⊢
            refine ⟨by simp, ?_⟩
            rcases hd.2 with h | ⟨h, h'⟩
            · exact .inl (by simp; exact h)
            · exact .inr ⟨by simp; exact h, shut_append h'⟩
        · show Tells .initialized (EF.ap c (p.callToRetEdge n .zero .initialized) v) _
          simp [callToRetEdge, EF.ap, Tells]
      · have hdd : d' = d := by
          rcases h5' with h | ⟨h, _⟩
          · exact h
          · exact absurd h hi
        subst hdd
        by_cases hs : p.callsNamed n shutdownFn = true
        · obtain ⟨f, hf, hnm⟩ := callsNamed_iff.1 hs
          have he := evOf_done.2 hnm
          have hk := key f hf (by rw [he]; simp)
          rw [he] at hk
          refine ⟨_, hk, ?_⟩
          show Tells d' (EF.ap c (p.callToRetEdge n d' d') v) _
          cases d' with
          | zero => simpa [callToRetEdge, EF.ap, Tells] using hd
          | initialized =>
            simp only [Tells] at hd ⊢
            exact ⟨by simp [hd.1], .inr ⟨by simp [callToRetEdge, hs, EF.ap], shut_done hd.1⟩⟩
        · refine ⟨tr, .tail ht (.over rfl h3 ?_ h4), ?_⟩
          · intro g hg
            rcases evOf_cases p g with h | h | h
            · exact h
            · exact absurd (callsNamed_iff.2 ⟨g, hdir n g hg (by rw [h]; simp), evOf_init.1 h⟩) hi
            · exact absurd (callsNamed_iff.2 ⟨g, hdir n g hg (by rw [h]; simp), evOf_done.1 h⟩) hs
          · show Tells d' (EF.ap c (p.callToRetEdge n d' d') v) _
            cases d' with
            | zero => simpa [callToRetEdge, EF.ap, Tells] using hd
            | initialized =>
              have hs' : p.callsNamed n shutdownFn = false := by simpa using hs
              simpa [callToRetEdge, hs', EF.ap] using hd

/-- What the runs that follow an execution arrive at. -/
structure Follows (c : EFCfg Empty Value) (lt : Edge → Edge → Bool) (p : Prog) (n0 : Nat) (stk : List Nat) (n : Nat)
    (tr : List Ev) : Prop where
  zero : RSteps (p.problem c lt) ⟨[], n0, .zero, .bot⟩ ⟨stk, n, .zero, .bot⟩
  init : Ev.init ∈ tr → ∃ v, RSteps (p.problem c lt) ⟨[], n0, .zero, .bot⟩ ⟨stk, n, .initialized, v⟩
  shut : ShutAfterInit tr → RSteps (p.problem c lt) ⟨[], n0, .zero, .bot⟩ ⟨stk, n, .initialized, .bot⟩

/-- A step that all facts follow unchanged. -/
theorem Follows.keep {n0 : Nat} {stk : List Nat} {n : Nat} {tr : List Ev} (h : Follows c lt p n0 stk n tr)
    {stk' : List Nat} {n' : Nat}
    (hs : ∀ d v, RStep (p.problem c lt) ⟨stk, n, d, v⟩ ⟨stk', n', d, v⟩) : Follows c lt p n0 stk' n' tr where
  zero := .tail h.zero (hs _ _)
  init := fun hi => by obtain ⟨v, hv⟩ := h.init hi; exact ⟨v, .tail hv (hs _ _)⟩
  shut := fun hi => .tail (h.shut hi) (hs _ _)

theorem run_of_exec (wf : p.WF) (hdir : p.DirectOnly) {skip : Bool} {n0 : Nat} {a : Conf} (h : p.Steps skip ⟨[], n0, []⟩ a) :
    Follows c lt p n0 a.stk a.n a.tr := by
  induction h with
  | refl =>
    refine ⟨.refl _, fun h => by simp at h, fun h => ?_⟩
    have := init_of_shut h
    simp at this
  | @tail b e h1 h2 ih =>
    -- a call that leaves the heap alone
    have quiet : ∀ {stk : List Nat} {n r : Nat} {tr : List Ev}, Follows c lt p n0 stk n tr → p.icf.isCall n = true →
        r ∈ p.icf.retSites n → p.callsNamed n initializerFn = false → p.callsNamed n shutdownFn = false →
        Follows c lt p n0 stk r tr := by
      intro stk n r tr hf h3 h4 hi hs
      refine hf.keep c lt fun d v => ?_
      have he : p.callToRetEdge n d d = .id := by unfold callToRetEdge; cases d <;> simp [hs]
      have := RStep.callToRet (P := p.problem c lt) (stk := stk) (v := v) h3 h4
        (show d ∈ p.callToRetFlow n d from mem_ctr.2 (.inl rfl))
      rw [show (p.problem c lt).ctrEdge n d r d = .id from he] at this
      exact this
    cases h2 with
    | normal h3 h4 => exact ih.keep c lt fun d v => .normal h3 h4 (List.mem_singleton.2 rfl)
    | enter h3 h4 h5 => exact ih.keep c lt fun d v => .call h3 h4 rfl h5 (List.mem_singleton.2 rfl)
    | ret h3 h4 h5 => exact ih.keep c lt fun d v => .ret h3 h4 h5 (List.mem_singleton.2 rfl)
    | @unknown stk n tr r h3 h4 h5 =>
      have hn : ∀ nm, p.callsNamed n nm = false := by
        intro nm
        cases hx : p.callsNamed n nm with
        | false => rfl
        | true =>
          obtain ⟨f, hf, _⟩ := callsNamed_iff.1 hx
          rw [wf.direct _ _ hf] at h4; simp at h4
      exact quiet ih h3 h5 (hn _) (hn _)
    | @over stk n tr r _ h3 h4 h5 =>
      have hn : ∀ nm, (∀ f, p.name f = nm → p.evOf f ≠ []) → p.callsNamed n nm = false := by
        intro nm hnm
        cases hx : p.callsNamed n nm with
        | false => rfl
        | true =>
          obtain ⟨f, hf, hnm'⟩ := callsNamed_iff.1 hx
          exact absurd (h4 f (by rw [wf.direct _ _ hf]; exact List.mem_singleton.2 rfl)) (hnm f hnm')
      exact quiet ih h3 h5 (hn _ fun f h => by rw [evOf_init.2 h]; simp) (hn _ fun f h => by rw [evOf_done.2 h]; simp)
    | @ext stk n tr g r h3 h4 h5 h6 =>
      rcases evOf_cases p g with he | he | he
      · rw [he, List.append_nil]
        have hn : ∀ nm, (∀ f, p.name f = nm → p.evOf f ≠ []) → p.callsNamed n nm = false := by
          intro nm hnm
          cases hx : p.callsNamed n nm with
          | false => rfl
          | true =>
            obtain ⟨f, hf, hnm'⟩ := callsNamed_iff.1 hx
            rw [wf.direct _ _ hf] at h4
            cases List.mem_singleton.1 h4
            exact absurd he (hnm _ hnm')
        exact quiet ih h3 h6 (hn _ fun f h => by rw [evOf_init.2 h]; simp) (hn _ fun f h => by rw [evOf_done.2 h]; simp)
      · have hdn := hdir n g h4 (by rw [he]; simp)
        have hi : p.callsNamed n initializerFn = true := callsNamed_iff.2 ⟨g, hdn, evOf_init.1 he⟩
        have hs : p.callsNamed n shutdownFn = false := by
          cases hx : p.callsNamed n shutdownFn with
          | false => rfl
          | true =>
            obtain ⟨f', hf', hnm'⟩ := callsNamed_iff.1 hx
            rw [hdn] at hf'; cases hf'
            rw [evOf_init.1 he] at hnm'; exact absurd hnm'.symm names_ne
        have step : ∀ d d' v, d' ∈ p.callToRetFlow n d →
            RStep (p.problem c lt) ⟨stk, n, d, v⟩ ⟨stk, r, d', EF.ap c (p.callToRetEdge n d d') v⟩ :=
          fun d d' v hd => RStep.callToRet (P := p.problem c lt) h3 h6 hd
        rw [he]
        refine ⟨?_, fun _ => ?_, fun h => ?_⟩
        · have := step .zero .zero .bot (mem_ctr.2 (.inl rfl))
          rw [show EF.ap c (p.callToRetEdge n .zero .zero) .bot = .bot by simp [callToRetEdge, EF.ap]] at this
          exact .tail ih.zero this
        · exact ⟨_, .tail ih.zero (step .zero .initialized .bot (mem_ctr.2 (.inr ⟨hi, rfl, rfl⟩)))⟩
        · rcases shut_snoc.1 h with h | ⟨h, _⟩
          · have := step .initialized .initialized .bot (mem_ctr.2 (.inl rfl))
            rw [show EF.ap c (p.callToRetEdge n .initialized .initialized) .bot = .bot by
              simp [callToRetEdge, EF.ap, hs]] at this
            exact .tail (ih.shut h) this
          · cases h
      · have hdn := hdir n g h4 (by rw [he]; simp)
        have hs : p.callsNamed n shutdownFn = true := callsNamed_iff.2 ⟨g, hdn, evOf_done.1 he⟩
        have step : ∀ d v, RStep (p.problem c lt) ⟨stk, n, d, v⟩ ⟨stk, r, d, EF.ap c (p.callToRetEdge n d d) v⟩ :=
          fun d v => RStep.callToRet (P := p.problem c lt) h3 h6 (mem_ctr.2 (.inl rfl))
        have hbot : ∀ v, EF.ap c (p.callToRetEdge n .initialized .initialized) v = .bot := by
          intro v; simp [callToRetEdge, EF.ap, hs]
        rw [he]
        have hb : Ev.init ∈ tr → RSteps (p.problem c lt) ⟨[], n0, .zero, .bot⟩ ⟨stk, r, .initialized, .bot⟩ := by
          intro h
          obtain ⟨v, hv⟩ := ih.init h
          have := step .initialized v
          rw [hbot] at this
          exact .tail hv this
        refine ⟨?_, fun h => ⟨_, hb ?_⟩, fun h => hb ?_⟩
        · have := step .zero .bot
          rw [show EF.ap c (p.callToRetEdge n .zero .zero) .bot = .bot by simp [callToRetEdge, EF.ap]] at this
          exact .tail ih.zero this
        · simpa using h
        · rcases shut_snoc.1 h with h | ⟨_, h⟩
          · exact init_of_shut h
          · exact h

theorem Steps.weaken {skip : Bool} {a b : Conf} (h : p.Steps false a b) : p.Steps skip a b := by
  induction h with
  | refl => exact .refl _
  | tail _ h ih =>
    refine .tail ih ?_
    cases h with
    | normal h1 h2 => exact .normal h1 h2
    | enter h1 h2 h3 => exact .enter h1 h2 h3
    | ret h1 h2 h3 => exact .ret h1 h2 h3
    | ext h1 h2 h3 h4 => exact .ext h1 h2 h3 h4
    | unknown h1 h2 h3 => exact .unknown h1 h2 h3
    | over h => cases h

end Phasar.SecureHeap
