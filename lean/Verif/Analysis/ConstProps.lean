import Verif.Analysis.Const
import Verif.Store.LLVMFlowProps
import Verif.IDE.Props
import Verif.IDE.Table
/-!
# Properties of the analysis of mutable memory locations (C67)
-/
set_option linter.unusedSectionVars false
namespace Phasar.Const
open Phasar Phasar.IDE Phasar.FlowFn

variable {p : Prog}

/-! ## The solver -/

theorem C67.ifds (init asked : List Nat) : IsIFDS (p.problem init asked) where
  alg := rfl
  normal _ _ _ _ := rfl
  call _ _ _ _ := rfl
  ret _ _ _ _ _ _ := rfl
  ctr _ _ _ _ := rfl
  sum _ _ _ _ := rfl
  seeds n facts h d v hd := by
    obtain ⟨sp, _, e⟩ := List.mem_map.1 h
    cases e
    rcases List.mem_cons.1 hd with h | h
    · cases h; rfl
    · cases h

/-- C67: the result of the solver at a statement is exactly the facts that the flow functions it was given carry there along valid
paths from an entry point. -/
theorem C67_results (wf : p.WF) (huniq : p.icf.UniqueStart) (init asked : List Nat) {st : St Nat Nat (EF Empty BinaryDomain)}
    {w : VS Nat Nat BinaryDomain} (h : Solved (p.problem init asked) st w) (n d : Nat) :
    ifdsResultsAt w n d ↔ FactReachable (p.problem init asked) n d :=
  C01_ifds_exact (C67.ifds init asked) wf.icf huniq rfl (fun n facts h => by
    obtain ⟨sp, hsp, e⟩ := List.mem_map.1 h
    cases e
    exact wf.seeds _ hsp) (fun _ _ _ _ h => by cases h) h n d

/-! ## What the analysis answers -/

theorem C67.writes_iff {n ptr : Nat} : p.write n = some ptr ↔ Writes p n ptr := by
  unfold Prog.write Writes
  split
  · rename_i q vt h; cases vt <;> simp [h]
  · rename_i q h; simp [h]
  · rename_i h1 h2
    refine ⟨fun h => (nomatch h), ?_⟩
    rintro (h | h)
    · exact absurd h (h1 _ _)
    · exact absurd h (h2 _)

theorem C67.ask_none {init : List Nat} {n : Nat} (h : p.write n = none) : p.ask init n = (init, none) := by
  unfold Prog.ask; rw [h]

theorem C67.ask_gen {init : List Nat} {n ptr : Nat} (h : p.write n = some ptr)
    (hi : ∃ a ∈ p.alias ptr, p.isInitialized init a = true) :
    p.ask init n = (init, some (p.relevantAliases ptr (p.icf.funOf n))) := by
  unfold Prog.ask; rw [h]
  simp only
  rw [if_pos (List.any_eq_true.2 hi)]

theorem C67.ask_mark {init : List Nat} {n ptr : Nat} (h : p.write n = some ptr)
    (hi : ¬ ∃ a ∈ p.alias ptr, p.isInitialized init a = true) : p.ask init n = (FSet.insert init ptr, none) := by
  unfold Prog.ask; rw [h]
  simp only
  rw [if_neg (fun h => hi (List.any_eq_true.1 h))]

theorem C67.init_iff {init : List Nat} {a : Nat} : p.isInitialized init a = true ↔ p.kind a = .global ∨ a ∈ init := by
  simp [Prog.isInitialized, Prog.isGlobal]

theorem C67.state_cons (init : List Nat) (m : Nat) (l : List Nat) : p.state init (m :: l) = p.state (p.ask init m).1 l := rfl

theorem C67.ask_mono {init : List Nat} {n a : Nat} (h : a ∈ init) : a ∈ (p.ask init n).1 := by
  unfold Prog.ask
  split
  · exact h
  · split
    · exact h
    · simp [h]

theorem C67.state_mono {a : Nat} (l : List Nat) : ∀ {init : List Nat}, a ∈ init → a ∈ p.state init l := by
  induction l with
  | nil => exact fun h => h
  | cons m l ih => exact fun h => ih (C67.ask_mono h)

/-- The answer to the first request for `n`. -/
theorem C67.answer_split {n : Nat} {post : List Nat} : ∀ {pre init : List Nat}, n ∉ pre →
    p.answer init (pre ++ n :: post) n = (p.ask (p.state init pre) n).2 := by
  intro pre
  induction pre with
  | nil => intro init _; simp [Prog.answer, Prog.state]
  | cons m pre ih =>
    intro init hn
    have hne : m ≠ n := fun h => hn (h ▸ List.mem_cons_self)
    show p.answer init (m :: (pre ++ n :: post)) n = _
    rw [Prog.answer, if_neg hne, ih (fun h => hn (List.mem_cons_of_mem _ h))]
    rfl

theorem C67.answer_append {n : Nat} {post : List Nat} : ∀ {pre init : List Nat}, n ∈ pre →
    p.answer init (pre ++ post) n = p.answer init pre n := by
  intro pre
  induction pre with
  | nil => intro init h; cases h
  | cons m pre ih =>
    intro init h
    show p.answer init (m :: (pre ++ post)) n = _
    rw [Prog.answer, Prog.answer]
    split
    · rfl
    · rename_i hne
      exact ih ((List.mem_cons.1 h).resolve_left fun h => hne h.symm)

theorem C67.answer_not_asked {n : Nat} : ∀ {asked init : List Nat}, n ∉ asked → p.answer init asked n = none := by
  intro asked
  induction asked with
  | nil => intro _ _; rfl
  | cons m l ih =>
    intro init h
    rw [Prog.answer, if_neg (fun e : m = n => h (e ▸ List.mem_cons_self)), ih fun h' => h (List.mem_cons_of_mem _ h')]

theorem C67.answer_write {n : Nat} {g : List Nat} : ∀ {asked init : List Nat}, p.answer init asked n = some g →
    ∃ ptr, p.write n = some ptr ∧ g = p.relevantAliases ptr (p.icf.funOf n) := by
  intro asked
  induction asked with
  | nil => intro _ h; cases h
  | cons m l ih =>
    intro init h
    rw [Prog.answer] at h
    split at h
    · rename_i e
      subst e
      unfold Prog.ask at h
      split at h
      · cases h
      · rename_i ptr hw
        split at h
        · exact ⟨ptr, hw, (Option.some.inj h).symm⟩
        · cases h
    · exact ih h

/-- Who put a pointer into `Initialized`. -/
theorem C67.state_src {a : Nat} : ∀ {l init : List Nat}, a ∈ p.state init l → a ∉ init →
    ∃ pre m post, l = pre ++ m :: post ∧ p.write m = some a ∧ (p.ask (p.state init pre) m).2 = none := by
  intro l
  induction l with
  | nil => exact fun h h' => absurd h h'
  | cons m l ih =>
    intro init h hn
    by_cases hm : a ∈ (p.ask init m).1
    · refine ⟨[], m, l, rfl, ?_⟩
      show _ ∧ (p.ask init m).2 = none
      unfold Prog.ask at hm ⊢
      split at hm
      · exact absurd hm hn
      · rename_i ptr hw
        split at hm
        · exact absurd hm hn
        · rename_i hi
          rw [if_neg hi]
          rcases FSet.mem_insert.1 hm with rfl | hm
          · exact ⟨hw, rfl⟩
          · exact absurd hm hn
    · obtain ⟨pre, m', post, e, h1, h2⟩ := ih h hm
      exact ⟨m :: pre, m', post, by rw [e]; rfl, h1, h2⟩

/-- A write that was not answered with facts is in `Initialized` afterwards. -/
theorem C67.marked {n ptr : Nat} {pre post init : List Nat} (hw : p.write n = some ptr)
    (h : (p.ask (p.state init pre) n).2 = none) : ptr ∈ p.state init (pre ++ n :: post) := by
  have : p.state init (pre ++ n :: post) = p.state (p.ask (p.state init pre) n).1 post := by
    unfold Prog.state; rw [List.foldl_append]; rfl
  rw [this]
  apply C67.state_mono
  by_cases hi : ∃ a ∈ p.alias ptr, p.isInitialized (p.state init pre) a = true
  · rw [C67.ask_gen hw hi] at h; cases h
  · rw [C67.ask_mark hw hi]; simp

/-- C67: a write that is asked for generates facts exactly if the alias set of its pointer contains a global, something that
was initialized before, or the pointer of a write asked for earlier that was taken for an initialization itself.  The facts
are those aliases that are allocations, globals, or instructions and parameters of the function. -/
theorem C67_answer {init pre post : List Nat} {n ptr : Nat} (hn : n ∉ pre) (hw : Writes p n ptr) :
    (∃ g, p.answer init (pre ++ n :: post) n = some g ∧ ∀ v, v ∈ g ↔ v ∈ p.alias ptr ∧
      ((∃ f, p.kind v = .inst true f) ∨ p.kind v = .global ∨ p.kind v = .inst false (p.icf.funOf n) ∨
        p.kind v = .arg (p.icf.funOf n))) ∧
      (∃ a ∈ p.alias ptr, p.kind a = .global ∨ a ∈ init ∨
        ∃ m ∈ pre, Writes p m a ∧ ∃ pre' post', pre = pre' ++ m :: post' ∧ (p.ask (p.state init pre') m).2 = none) ∨
    p.answer init (pre ++ n :: post) n = none ∧
      ∀ a ∈ p.alias ptr, p.kind a ≠ .global ∧ a ∉ init ∧
        ∀ m pre' post', pre = pre' ++ m :: post' → Writes p m a → (p.ask (p.state init pre') m).2 ≠ none := by
  have hw := C67.writes_iff.2 hw
  simp only [← C67.writes_iff]
  rw [C67.answer_split hn]
  by_cases hi : ∃ a ∈ p.alias ptr, p.isInitialized (p.state init pre) a = true
  · refine .inl ⟨⟨_, by rw [C67.ask_gen hw hi], fun v => ?_⟩, ?_⟩
    · unfold Prog.relevantAliases Prog.relevant
      rw [List.mem_filter]
      refine and_congr_right fun _ => ?_
      cases p.kind v with
      | inst al f => cases al <;> simp
      | global => simp
      | arg f => simp
      | other => simp
    · obtain ⟨a, ha, h⟩ := hi
      refine ⟨a, ha, ?_⟩
      rcases C67.init_iff.1 h with h | h
      · exact .inl h
      · by_cases h0 : a ∈ init
        · exact .inr (.inl h0)
        · obtain ⟨pre', m, post', e, h1, h2⟩ := C67.state_src h h0
          exact .inr (.inr ⟨m, by rw [e]; simp, h1, pre', post', e, h2⟩)
  · refine .inr ⟨by rw [C67.ask_mark hw hi], fun a ha => ⟨fun h => ?_, fun h => ?_, fun m pre' post' e h1 h2 => ?_⟩⟩
    · exact hi ⟨a, ha, C67.init_iff.2 (.inl h)⟩
    · exact hi ⟨a, ha, C67.init_iff.2 (.inr (C67.state_mono _ h))⟩
    · exact hi ⟨a, ha, C67.init_iff.2 (.inr (e ▸ C67.marked h1 h2))⟩

theorem C67.first {n : Nat} {l : List Nat} (h : n ∈ l) : ∃ pre post, l = pre ++ n :: post ∧ n ∉ pre := by
  induction l with
  | nil => cases h
  | cons m l ih =>
    by_cases e : m = n
    · exact ⟨[], l, by rw [e]; rfl, List.not_mem_nil⟩
    · obtain ⟨pre, post, h1, h2⟩ := ih ((List.mem_cons.1 h).resolve_left fun h => e h.symm)
      exact ⟨m :: pre, post, by rw [h1]; rfl, fun h => (List.mem_cons.1 h).elim (fun h => e h.symm) h2⟩

theorem C67.two_aux {init pre mid post : List Nat} {m n x y : Nat} (hm : m ∉ pre) (hn : n ∉ pre ++ m :: mid)
    (hmw : p.write m = some x) (hnw : p.write n = some y) (hxy : x ∈ p.alias y) :
    (p.answer init (pre ++ m :: (mid ++ n :: post)) m).isSome = true ∨
    (p.answer init (pre ++ m :: (mid ++ n :: post)) n).isSome = true := by
  rw [C67.answer_split hm]
  cases h : (p.ask (p.state init pre) m).2 with
  | some g => exact .inl rfl
  | none =>
    right
    rw [show pre ++ m :: (mid ++ n :: post) = (pre ++ m :: mid) ++ n :: post by simp, C67.answer_split hn,
      C67.ask_gen hnw ⟨x, hxy, C67.init_iff.2 (.inr (C67.marked hmw h))⟩]
    rfl

/-- C67: whatever the order, of two different writes through pointers that are aliases of each other at least one is answered
with facts. -/
theorem C67_two {init asked : List Nat} {m n x y : Nat} (hm : m ∈ asked) (hn : n ∈ asked) (hne : m ≠ n)
    (hmw : Writes p m x) (hnw : Writes p n y) (hxy : x ∈ p.alias y) (hyx : y ∈ p.alias x) :
    (p.answer init asked m).isSome = true ∨ (p.answer init asked n).isSome = true := by
  have hmw := C67.writes_iff.2 hmw
  have hnw := C67.writes_iff.2 hnw
  obtain ⟨pre, post, e, h1⟩ := C67.first hm
  subst e
  rcases List.mem_append.1 hn with h | h
  · obtain ⟨pre', mid, e, h2⟩ := C67.first h
    subst e
    rw [show (pre' ++ n :: mid) ++ m :: post = pre' ++ n :: (mid ++ m :: post) by simp]
    exact (C67.two_aux h2 h1 hnw hmw hyx).symm
  · by_cases hp : n ∈ pre
    · obtain ⟨pre', mid, e, h2⟩ := C67.first hp
      subst e
      rw [show (pre' ++ n :: mid) ++ m :: post = pre' ++ n :: (mid ++ m :: post) by simp]
      exact (C67.two_aux h2 h1 hnw hmw hyx).symm
    · obtain ⟨mid, post', e, h2⟩ := C67.first ((List.mem_cons.1 h).resolve_left fun h => hne h.symm)
      subst e
      refine C67.two_aux h1 (fun h => ?_) hmw hnw hxy
      rcases List.mem_append.1 h with h | h
      · exact hp h
      · exact (List.mem_cons.1 h).elim (fun h => hne h.symm) h2

/-- C67: an object that is used a second time has not forgotten: each write it was asked for answers with facts, if pointers are
aliases of themselves. -/
theorem C67_again {init asked asked' : List Nat} {n ptr : Nat} (hn : n ∈ asked) (hn' : n ∈ asked')
    (hw : Writes p n ptr) (hself : ptr ∈ p.alias ptr) :
    (p.answer (p.state init asked) asked' n).isSome = true := by
  have hw := C67.writes_iff.2 hw
  obtain ⟨pre, post, e, h1⟩ := C67.first hn'
  subst e
  rw [C67.answer_split h1]
  have key : ∃ a ∈ p.alias ptr, p.isInitialized (p.state init asked) a = true := by
    obtain ⟨pre', post', e, h2⟩ := C67.first hn
    subst e
    by_cases hi : ∃ a ∈ p.alias ptr, p.isInitialized (p.state init pre') a = true
    · obtain ⟨a, ha, h⟩ := hi
      refine ⟨a, ha, C67.init_iff.2 ((C67.init_iff.1 h).imp id fun h => ?_)⟩
      have : p.state init (pre' ++ n :: post') = p.state (p.state init pre') (n :: post') := by
        unfold Prog.state; rw [List.foldl_append]
      rw [this]; exact C67.state_mono _ h
    · exact ⟨ptr, hself, C67.init_iff.2 (.inr (C67.marked hw (by rw [C67.ask_mark hw hi])))⟩
  obtain ⟨a, ha, h⟩ := key
  rw [C67.ask_gen hw ⟨a, ha, C67.init_iff.2 ((C67.init_iff.1 h).imp id (C67.state_mono _))⟩]
  rfl

/-! ## Flow functions -/

theorem C67.mem_flow {init asked : List Nat} {n s t : Nat} : t ∈ p.flow init asked n s ↔
    t = s ∨ s = p.ir.zero ∧ ∃ g, p.answer init asked n = some g ∧ t ∈ g := by
  unfold Prog.flow
  cases h : p.answer init asked n with
  | none => simp [identityFlow]
  | some g =>
    simp only [generateManyFlows]
    by_cases e : s = p.ir.zero
    · rw [if_pos e]; simp [e, makeContainer]
    · rw [if_neg e]; simp [e]

/-- C67: within a function no fact is ever lost; the only new facts come from zero at writes. -/
theorem C67_normal (init asked : List Nat) (n n' s t : Nat) : t ∈ (p.problem init asked).normalFlow n n' s ↔
    t = s ∨ s = p.ir.zero ∧ ∃ g, p.answer init asked n = some g ∧ t ∈ g := C67.mem_flow

/-- C67: statements that write nothing are never answered with facts to generate. -/
theorem C67_other {init asked : List Nat} {n : Nat} (h : ∀ ptr, ¬ Writes p n ptr) : p.answer init asked n = none := by
  cases ha : p.answer init asked n with
  | none => rfl
  | some g =>
    obtain ⟨ptr, hw, _⟩ := C67.answer_write ha
    exact absurd (C67.writes_iff.1 hw) (h ptr)

/-- C67: past a call all facts are kept; memory intrinsics work like stores. -/
theorem C67_past (init asked : List Nat) (n r s t : Nat) : t ∈ (p.problem init asked).ctrFlow n r s ↔
    t = s ∨ s = p.ir.zero ∧ (∃ d, p.inst n = .mem d) ∧ ∃ g, p.answer init asked n = some g ∧ t ∈ g := by
  show t ∈ p.ctrFlow init asked n r s ↔ _
  unfold Prog.ctrFlow
  cases hd : p.inst n with
  | mem d =>
    simp only
    rw [C67.mem_flow]
    simp
  | _ => simp [identityFlow]

/-- C67: into a function with a body flow zero, constants, and the pointer parameters whose argument is the fact (variable
arguments: the variable-argument lists); into memory intrinsics nothing. -/
theorem C67_call (init asked : List Nat) (n f s t : Nat) : t ∈ (p.problem init asked).callFlow n f s ↔
    (∀ d, p.inst n ≠ .mem d) ∧ (p.callee f).decl = false ∧
      (t = s ∧ (s = p.ir.zero ∨ p.ir.isConst s = true) ∨
       p.isPtr s = true ∧ ((∃ i : Nat, (p.callee f).params[i]? = some t ∧ (p.args n)[i]? = some s ∧
          ¬ ((p.callee f).sret = true ∧ i = 0)) ∨
        t ∈ (p.callee f).vaLists ∧ ∃ i : Nat, (p.callee f).params.length ≤ i ∧ (p.args n)[i]? = some s)) := by
  show t ∈ p.callFlow n f s ↔ _
  by_cases hm : ∃ d, p.inst n = .mem d
  · obtain ⟨d, hd⟩ := hm
    unfold Prog.callFlow
    rw [hd]
    simp only [killAllFlows]
    exact ⟨fun h => (nomatch h), fun h => absurd rfl (h.1 d)⟩
  · have hd : ∀ d, p.inst n ≠ .mem d := fun d h => hm ⟨d, h⟩
    have he : p.callFlow n f = mapFactsToCallee p.ir (p.args n) (p.callee f) (fun a s => decide (a = s) && p.isPtr a) true true := by
      unfold Prog.callFlow
      cases h : p.inst n with
      | mem d => exact absurd h (hd d)
      | _ => rfl
    rw [he, C50_callee]
    simp only [Bool.and_eq_true, decide_eq_true_eq]
    constructor
    · rintro ⟨h0, h⟩
      refine ⟨hd, h0, ?_⟩
      rcases h with ⟨h1, h2⟩ | ⟨i, a, h1, h2, ⟨rfl, h3⟩, h4⟩ | ⟨h1, i, a, h2, h3, rfl, h4⟩
      · exact .inl ⟨h1, h2.elim (fun h => .inl h.1) fun h => .inr h.2.1⟩
      · exact .inr ⟨h3, .inl ⟨i, h1, h2, h4⟩⟩
      · exact .inr ⟨h4, .inr ⟨h1, i, h2, h3⟩⟩
    · rintro ⟨_, h0, h⟩
      refine ⟨h0, ?_⟩
      rcases h with ⟨h1, h2⟩ | ⟨h3, ⟨i, h1, h2, h4⟩ | ⟨h1, i, h2, h4⟩⟩
      · refine .inl ⟨h1, ?_⟩
        by_cases e : s = p.ir.zero
        · exact .inl ⟨e, trivial⟩
        · exact .inr ⟨e, h2.resolve_left e, trivial⟩
      · exact .inr (.inl ⟨i, s, h1, h2, ⟨rfl, h3⟩, h4⟩)
      · exact .inr (.inr ⟨h1, i, s, h2, h4, rfl, h3⟩)

/-- C67: back to the caller flow zero, constants, the arguments of pointer parameters that are the fact (for a variable-argument
list: all variable arguments), and the call if the fact is returned.  In particular allocations of the caller that were found
to be mutable in the callee are not facts in the caller. -/
theorem C67_ret (init asked : List Nat) (c f e r s t : Nat) : t ∈ (p.problem init asked).retFlow c f e r s ↔
    t = s ∧ (s = p.ir.zero ∨ p.ir.isConst s = true) ∨
    p.isPtr s = true ∧ ((∃ i : Nat, (p.callee f).params[i]? = some s ∧ (p.args c)[i]? = some t) ∨
      s ∈ (p.callee f).vaLists ∧ ∃ i : Nat, (p.callee f).params.length ≤ i ∧ (p.args c)[i]? = some t) ∨
    p.inst e = .ret (some s) ∧ t = c := by
  show t ∈ p.retFlow c f e r s ↔ _
  unfold Prog.retFlow
  rw [C50_caller_partial]
  simp only [Bool.and_eq_true, decide_eq_true_eq]
  have hrv : p.retVal e = some s ↔ p.inst e = .ret (some s) := by
    unfold Prog.retVal
    split <;> simp_all
  constructor
  · rintro (⟨h1, h2⟩ | ⟨i, a, h1, h2, rfl, h3⟩ | ⟨⟨a, h1, rfl, h2⟩, h3⟩ | ⟨v, h1, rfl, h2⟩)
    · exact .inl ⟨h1, h2.imp (·.1) (·.1)⟩
    · exact .inr (.inl ⟨h3, .inl ⟨i, h1, h2⟩⟩)
    · exact .inr (.inl ⟨h2, .inr ⟨h1, h3⟩⟩)
    · exact .inr (.inr ⟨hrv.1 h1, h2⟩)
  · rintro (⟨h1, h2⟩ | ⟨h3, ⟨i, h1, h2⟩ | ⟨h1, h2⟩⟩ | ⟨h1, h2⟩)
    · exact .inl ⟨h1, h2.imp (⟨·, trivial⟩) (⟨·, trivial⟩)⟩
    · exact .inr (.inl ⟨i, s, h1, h2, rfl, h3⟩)
    · exact .inr (.inr (.inl ⟨⟨s, h1, rfl, h3⟩, h2⟩))
    · exact .inr (.inr (.inr ⟨s, hrv.2 h1, rfl, h2⟩))

/-! ## Soundness up to repetition -/

theorem C67.step_zero (wf : p.WF) (init asked : List Nat) {a b : List Nat × Nat} (h : Step p a b) :
    FStep (p.problem init asked) (a.1, a.2, p.ir.zero) (b.1, b.2, p.ir.zero) := by
  cases h with
  | normal h1 h2 => exact .normal h1 h2 ((C67_normal ..).2 (.inl rfl))
  | @call stk n g sp h1 h2 h3 h4 =>
    refine .call h1 h2 rfl h4 ((C67_call ..).2 ⟨fun d hd => ?_, h3, .inl ⟨rfl, .inl rfl⟩⟩)
    rw [(wf.mem n d hd).2 g h2] at h3; cases h3
  | ret h1 h2 h3 => exact .ret h1 h2 h3 ((C67_ret ..).2 (.inl ⟨rfl, .inl rfl⟩))
  | past h1 h2 => exact .callToRet h1 h2 ((C67_past ..).2 (.inl rfl))

theorem C67.steps_zero (wf : p.WF) (init asked : List Nat) {a : List Nat × Nat} {l : List (List Nat × Nat)}
    (h : Steps p (a :: l)) {o : List Nat × Nat × Nat} (ho : FSteps (p.problem init asked) o (a.1, a.2, p.ir.zero))
    {c : List Nat × Nat} (hc : c ∈ a :: l) : FSteps (p.problem init asked) o (c.1, c.2, p.ir.zero) := by
  induction l generalizing a with
  | nil => rw [List.mem_singleton.1 hc]; exact ho
  | cons b l ih =>
    rcases List.mem_cons.1 hc with rfl | hc
    · exact ho
    · exact ih h.2 (.tail ho (C67.step_zero wf init asked h.1)) hc

/-- C67: zero holds at every statement that can be executed. -/
theorem C67_zero (wf : p.WF) (init asked : List Nat) {n : Nat} (h : Reached p n) :
    FactReachable (p.problem init asked) n p.ir.zero := by
  obtain ⟨r, c, hc, rfl⟩ := h
  obtain ⟨sp, hsp, he⟩ := r.start
  cases hp : r.path with
  | nil => rw [hp] at he; cases he
  | cons a l =>
    have ha : a = ([], sp) := by rw [hp] at he; exact Option.some.inj he
    have hs := r.steps
    rw [hp] at hs hc
    refine ⟨sp, p.ir.zero, c.1, ⟨[(p.ir.zero, .BOTTOM)], List.mem_map.2 ⟨sp, hsp, rfl⟩, .inr rfl⟩, ?_⟩
    exact C67.steps_zero wf init asked hs (by rw [ha]; exact .refl _) hc

theorem C67.within {init asked : List Nat} {n n' d : Nat} (h : Within p n n')
    (hd : FactReachable (p.problem init asked) n d) : FactReachable (p.problem init asked) n' d := by
  induction h with
  | succ h1 h2 =>
    obtain ⟨n0, d0, stk, h3, h4⟩ := hd
    exact ⟨n0, d0, stk, h3, .tail h4 (.normal h1 h2 ((C67_normal ..).2 (.inl rfl)))⟩
  | past h1 h2 =>
    obtain ⟨n0, d0, stk, h3, h4⟩ := hd
    exact ⟨n0, d0, stk, h3, .tail h4 (.callToRet h1 h2 ((C67_past ..).2 (.inl rfl)))⟩
  | trans _ _ ih1 ih2 => exact ih2 (ih1 hd)

/-- C67: what a write generates holds everywhere after it in the function. -/
theorem C67_generated (wf : p.WF) (init asked : List Nat) {n n' v : Nat} {g : List Nat} (hr : Reached p n)
    (ha : p.answer init asked n = some g) (hv : v ∈ g) (h : Within p n n') : FactReachable (p.problem init asked) n' v := by
  have hz := C67_zero wf init asked hr
  obtain ⟨ptr, hw⟩ : ∃ ptr, p.write n = some ptr := (C67.answer_write ha).imp fun _ h => h.1
  induction h with
  | succ h1 h2 =>
    obtain ⟨n0, d0, stk, h3, h4⟩ := hz
    exact ⟨n0, d0, stk, h3, .tail h4 (.normal h1 h2 ((C67_normal ..).2 (.inr ⟨rfl, g, ha, hv⟩)))⟩
  | @past n n' h1 h2 =>
    obtain ⟨n0, d0, stk, h3, h4⟩ := hz
    refine ⟨n0, d0, stk, h3, .tail h4 (.callToRet h1 h2 ((C67_past ..).2 (.inr ⟨rfl, ?_, g, ha, hv⟩)))⟩
    unfold Prog.write at hw
    split at hw
    · rename_i ptr' vt hi
      rw [wf.store n _ _ hi] at h1; cases h1
    · exact ⟨_, by assumption⟩
    · cases hw
  | trans _ h2 ih1 _ => exact C67.within h2 (ih1 hr ha hz hw)

/-- C67 (partial): let an execution write a memory location twice, at two different statements that are no set-ups of virtual
tables.  If the alias sets describe the execution and the solver asked for both statements, in any order, then after one of
the two statements, and from there on in the whole function, the allocation of the location is a fact, as are all
context-relevant aliases of the pointer.  Missing: the same statement executed twice (`C67_loop_false`). -/
theorem C67_mutable_partial (wf : p.WF) (init asked : List Nat) (r : Run p) (hr : r.Described) {i j a : Nat} {c d : List Nat × Nat}
    (hi : r.path[i]? = some c) (hj : r.path[j]? = some d) (hne : c.2 ≠ d.2) (hwi : r.wr i = some a) (hwj : r.wr j = some a)
    (hc : c.2 ∈ asked) (hd : d.2 ∈ asked) (hloc : p.isLoc (r.site a) = true) :
    ∃ n, (n = c.2 ∨ n = d.2) ∧ ∃ ptr, Writes p n ptr ∧ r.site a ∈ p.alias ptr ∧ ∀ n', Within p n n' →
      FactReachable (p.problem init asked) n' (r.site a) ∧
      ∀ v ∈ p.alias ptr, p.relevant (p.icf.funOf n) v = true → FactReachable (p.problem init asked) n' v := by
  obtain ⟨x, hx, hsx⟩ := hr.site i a c hwi hi
  obtain ⟨y, hy, hsy⟩ := hr.site j a d hwj hj
  have hloc' : ∀ f, p.relevant f (r.site a) = true := by
    intro f
    unfold Prog.isLoc at hloc
    unfold Prog.relevant
    cases hk : p.kind (r.site a) with
    | inst al g => rw [hk] at hloc; simp only at hloc; simp [hloc]
    | global => rfl
    | arg => rw [hk] at hloc; cases hloc
    | other => rw [hk] at hloc; cases hloc
  have fin : ∀ n ptr, Reached p n → p.write n = some ptr → r.site a ∈ p.alias ptr → (p.answer init asked n).isSome = true →
      ∀ n', Within p n n' → FactReachable (p.problem init asked) n' (r.site a) ∧
      ∀ v ∈ p.alias ptr, p.relevant (p.icf.funOf n) v = true → FactReachable (p.problem init asked) n' v := by
    intro n ptr hn hw hs ha n' hn'
    obtain ⟨g, hg⟩ := Option.isSome_iff_exists.1 ha
    obtain ⟨ptr', hw', hg'⟩ := C67.answer_write hg
    rw [hw] at hw'
    cases hw'
    have hin : ∀ v ∈ p.alias ptr, p.relevant (p.icf.funOf n) v = true → v ∈ g := fun v h1 h2 => by
      rw [hg']; exact List.mem_filter.2 ⟨h1, h2⟩
    exact ⟨C67_generated wf init asked hn hg (hin _ hs (hloc' _)) hn',
      fun v h1 h2 => C67_generated wf init asked hn hg (hin v h1 h2) hn'⟩
  rcases C67_two (init := init) hc hd hne hx hy (hr.meet i j a c d x y hwi hwj hi hj hx hy)
    (hr.meet j i a d c y x hwj hwi hj hi hy hx) with h | h
  · exact ⟨c.2, .inl rfl, x, hx, hsx, fin _ x ⟨r, c, List.mem_of_getElem? hi, rfl⟩ (C67.writes_iff.2 hx) hsx h⟩
  · exact ⟨d.2, .inr rfl, y, hy, hsy, fin _ y ⟨r, d, List.mem_of_getElem? hj, rfl⟩ (C67.writes_iff.2 hy) hsy h⟩

/-! ## Precision -/

/-- C67: facts other than zero come from a write that generates. -/
theorem C67_origin (wf : p.WF) (init asked : List Nat) {n d : Nat} (h : FactReachable (p.problem init asked) n d)
    (hd : d ≠ p.ir.zero) : ∃ m g, m ∈ asked ∧ p.answer init asked m = some g := by
  refine Classical.byContradiction fun hno => ?_
  have hno : ∀ m g, p.answer init asked m ≠ some g := fun m g hg => by
    by_cases hm : m ∈ asked
    · exact hno ⟨m, g, hm, hg⟩
    · rw [C67.answer_not_asked hm] at hg; cases hg
  obtain ⟨n0, d0, stk, ⟨facts, hs, hd0⟩, hr⟩ := h
  have key : ∀ a b, FSteps (p.problem init asked) a b → a.2.2 = p.ir.zero → b.2.2 = p.ir.zero := by
    intro a b hab h1
    induction hab with
    | refl => exact h1
    | tail _ hst ih =>
      cases hst with
      | @normal stk n s n' t _ _ hd =>
        have ih : s = p.ir.zero := ih
        rcases (C67_normal ..).1 hd with h | ⟨_, g, h, _⟩
        · exact h.trans ih
        · exact absurd h (hno _ _)
      | @callToRet stk n s r t _ _ hd =>
        have ih : s = p.ir.zero := ih
        rcases (C67_past ..).1 hd with h | ⟨_, _, g, h, _⟩
        · exact h.trans ih
        · exact absurd h (hno _ _)
      | @call stk n s g sp t _ _ _ _ hd =>
        have ih : s = p.ir.zero := ih
        obtain ⟨_, _, ⟨h, _⟩ | ⟨_, ⟨i, _, h, _⟩ | ⟨_, i, _, h⟩⟩⟩ := (C67_call ..).1 hd
        · exact h.trans ih
        · exact absurd (ih ▸ List.mem_of_getElem? h) (wf.noArg _)
        · exact absurd (ih ▸ List.mem_of_getElem? h) (wf.noArg _)
      | @ret stk c n s r t _ _ _ hd =>
        have ih : s = p.ir.zero := ih
        rcases (C67_ret ..).1 hd with ⟨h, _⟩ | ⟨_, ⟨i, h, _⟩ | ⟨h, _⟩⟩ | ⟨h, _⟩
        · exact h.trans ih
        · exact absurd (ih ▸ List.mem_of_getElem? h) (wf.noParam _).1
        · exact absurd (ih ▸ h) (wf.noParam _).2
        · exact absurd (by unfold Prog.retVal; rw [h]; simp [ih]) (wf.noRet _)
      | summary _ _ h => cases h
  obtain ⟨sp, _, e⟩ := List.mem_map.1 hs
  cases e
  have h0 : d0 = p.ir.zero := by
    rcases hd0 with h | h
    · simpa using h
    · exact h
  exact hd (key _ _ hr h0)

/-- C67: if no write that is asked for goes through an alias of a global or of the pointer of another one, nothing is a fact but
zero. -/
theorem C67_separate (wf : p.WF) (asked : List Nat)
    (hg : ∀ n ∈ asked, ∀ x, Writes p n x → ∀ a ∈ p.alias x, p.kind a ≠ .global)
    (hs : ∀ m ∈ asked, ∀ n ∈ asked, m ≠ n → ∀ x y, Writes p m x → Writes p n y → x ∉ p.alias y)
    {n d : Nat} (h : FactReachable (p.problem [] asked) n d) : d = p.ir.zero := by
  refine Classical.byContradiction fun hd => ?_
  obtain ⟨m, g, hm, ha⟩ := C67_origin wf [] asked h hd
  obtain ⟨x, hx, _⟩ := C67.answer_write ha
  have hx := C67.writes_iff.1 hx
  obtain ⟨pre, post, e, hn⟩ := C67.first hm
  subst e
  rcases C67_answer (p := p) (init := []) (post := post) hn hx with ⟨_, a, ha', h1⟩ | ⟨h1, _⟩
  · rcases h1 with h1 | h1 | ⟨m', hm', h1, _⟩
    · exact hg m hm x hx a ha' h1
    · cases h1
    · exact hs m' (List.mem_append_left _ hm') m hm (fun e => hn (e ▸ hm')) a x h1 hx ha'
  · rw [h1] at ha; cases ha

/-! ## The report -/

theorem C67.strike_fold (ds : List Nat) : ∀ (ls : List Nat) (m : Nat),
    m ∈ ds.foldl (fun ls d => if p.isLoc d then ls.filter (fun m => decide (m ≠ d)) else ls) ls ↔
      m ∈ ls ∧ ¬ (p.isLoc m = true ∧ m ∈ ds) := by
  induction ds with
  | nil => simp
  | cons d ds ih =>
    intro ls m
    rw [List.foldl_cons, ih]
    by_cases hd : p.isLoc d = true
    · rw [if_pos hd, List.mem_filter]
      simp only [decide_eq_true_eq, List.mem_cons]
      constructor
      · rintro ⟨⟨h1, h2⟩, h3⟩
        exact ⟨h1, fun h => h.2.elim h2 fun h' => h3 ⟨h.1, h'⟩⟩
      · rintro ⟨h1, h2⟩
        exact ⟨⟨h1, fun e => h2 ⟨e ▸ hd, .inl e⟩⟩, fun h => h2 ⟨h.1, .inr h.2⟩⟩
    · rw [if_neg hd]
      simp only [List.mem_cons]
      refine and_congr_right fun _ => not_congr (and_congr_right fun h => ⟨.inr, fun h' => h'.resolve_left fun e => hd (e ▸ h)⟩)

/-- C67 (partial): of the locations it starts with the report drops those instructions that are in a function one of whose exits
has no facts, and those allocations and globals that are facts at an exit; it keeps the others.  Missing: nobody gives it
locations to start with (`C67_report_false`). -/
theorem C67_report_partial (res : Nat → List Nat) (exits : List (Nat × Nat)) (locs : List Nat) (m : Nat) :
    m ∈ p.report res exits locs ↔ m ∈ locs ∧ ∀ x ∈ exits,
      (res x.2 = [] → ∀ al, p.kind m ≠ .inst al x.1) ∧
      (m ∈ res x.2 → p.kind m ≠ .global ∧ ∀ f, p.kind m ≠ .inst true f) := by
  have hloc : p.isLoc m = true ↔ p.kind m = .global ∨ ∃ f, p.kind m = .inst true f := by
    unfold Prog.isLoc
    cases p.kind m with
    | inst al f => cases al <;> simp
    | _ => simp
  have hin : ∀ f, p.inFun f m = true ↔ ∃ al, p.kind m = .inst al f := by
    intro f
    unfold Prog.inFun
    cases p.kind m with
    | inst al g => simp
    | _ => simp
  have hstrike : ∀ (ls : List Nat) (f e : Nat), m ∈ p.strike res ls f e ↔ m ∈ ls ∧
      (res e = [] → ∀ al, p.kind m ≠ .inst al f) ∧ (m ∈ res e → p.kind m ≠ .global ∧ ∀ f, p.kind m ≠ .inst true f) := by
    intro ls f e
    unfold Prog.strike
    cases he : res e with
    | nil =>
      rw [if_pos (by rfl), List.mem_filter]
      refine and_congr_right fun _ => ⟨fun h => ⟨fun _ al hk => ?_, fun h => (nomatch h)⟩, fun h => ?_⟩
      · rw [(hin f).2 ⟨al, hk⟩] at h; cases h
      · cases hf : p.inFun f m with
        | false => rfl
        | true => obtain ⟨al, hk⟩ := (hin f).1 hf; exact absurd hk (h.1 rfl al)
    | cons d ds =>
      rw [if_neg (by simp), C67.strike_fold]
      refine and_congr_right fun _ => ⟨fun h => ⟨fun h' => (nomatch h'), fun h' => ?_⟩, fun h h' => ?_⟩
      · exact ⟨fun hk => h ⟨hloc.2 (.inl hk), h'⟩, fun f hk => h ⟨hloc.2 (.inr ⟨f, hk⟩), h'⟩⟩
      · rcases hloc.1 h'.1 with hk | ⟨f, hk⟩
        · exact (h.2 h'.2).1 hk
        · exact (h.2 h'.2).2 f hk
  unfold Prog.report
  clear hloc hin
  induction exits generalizing locs with
  | nil => simp
  | cons x l ih =>
    rw [List.foldl_cons]
    refine (ih (p.strike res locs x.1 x.2)).trans ?_
    rw [hstrike, List.forall_mem_cons, and_assoc]

/-- C67 (refuted): the report is the same for all programs and all results: no immutable locations. -/
theorem C67_report_false (res : Nat → List Nat) (exits : List (Nat × Nat)) : p.emit res exits = none := by
  have h : p.report res exits [] = [] := List.eq_nil_iff_forall_not_mem.2 fun m hm =>
    nomatch ((C67_report_partial res exits [] m).1 hm).1
  unfold Prog.emit
  simp only [h]
  rfl

/-! ## What is missed and what depends on the order -/

/-- A program in tables: values are numbers, statements are the numbers below `rows.length`, zero is 100; the values in `locals`
are stack allocations of function 0, which are aliases of themselves only. -/
def C67.tab (rows : List Row) (insts : List Inst) (locals : List Nat) : Prog where
  inst := fun n => insts[n]?.getD .other
  icf := tabICFG rows
  ir := ⟨100, fun v => v == 100⟩
  kind := fun v => if locals.contains v then .inst true 0 else .other
  isPtr := fun v => locals.contains v
  alias := fun v => [v]
  callee := fun _ => ⟨true, [], false, []⟩
  entries := [0]

/-- No calls, and zero is not returned. -/
def C67.tabOk (insts : List Inst) : Bool := insts.all fun i => match i with
  | .store _ _ => true
  | .other => true
  | .ret none => true
  | _ => false

theorem C67.tab_wf {rows : List Row} {insts : List Inst} {locals : List Nat} (h1 : IDE.tabOk rows = true)
    (h2 : (0 : Nat) ∈ tabStarts rows (tabRow rows 0).fn) (h3 : C67.tabOk insts = true) (h4 : rows.all (fun r => r.call.isNone) = true) :
    (C67.tab rows insts locals).WF := by
  have hi : ∀ n, (∃ x v, (C67.tab rows insts locals).inst n = .store x v) ∨ (C67.tab rows insts locals).inst n = .other ∨
      (C67.tab rows insts locals).inst n = .ret none := by
    intro n
    show (∃ x v, insts[n]?.getD .other = .store x v) ∨ insts[n]?.getD .other = .other ∨ insts[n]?.getD .other = .ret none
    cases h : insts[n]? with
    | none => simp
    | some i =>
      have := List.all_eq_true.1 h3 i (List.mem_of_getElem? h)
      cases i with
      | store x v => exact .inl ⟨x, v, rfl⟩
      | mem d => cases this
      | call a => cases this
      | ret v => cases v with
        | none => exact .inr (.inr rfl)
        | some v => cases this
      | other => exact .inr (.inl rfl)
  have hc : ∀ n, (tabRow rows n).call = none := by
    intro n
    unfold tabRow
    cases h : rows[n]? with
    | none => rfl
    | some r => simpa using List.all_eq_true.1 h4 r (List.mem_of_getElem? h)
  refine ⟨tabICFG_wfv h1, ?_, rfl, ?_, ?_, ?_, ?_, ?_, ?_⟩
  · intro sp hsp
    rw [List.mem_singleton.1 hsp]; exact h2
  · intro n _ _ _
    show ((tabRow rows n).call.isSome) = false
    rw [hc]; rfl
  · intro n d hd
    rcases hi n with ⟨x, v, h⟩ | h | h <;> rw [h] at hd <;> cases hd
  · intro n f hf
    have : (tabICFG rows).callees n = [] := by
      show ((tabRow rows n).call.getD ([], [])).1 = []
      rw [hc]; rfl
    rw [show (C67.tab rows insts locals).icf.callees n = [] from this] at hf
    cases hf
  · intro n hn
    unfold Prog.args at hn
    rcases hi n with ⟨x, v, h⟩ | h | h <;> rw [h] at hn <;> cases hn
  · intro n hn
    unfold Prog.retVal at hn
    rcases hi n with ⟨x, v, h⟩ | h | h <;> rw [h] at hn <;> cases hn
  · intro f; exact ⟨fun h => (nomatch h), fun h => (nomatch h)⟩

/-- `for (...) x = ...; return`: statement 1 writes the local 10 in a loop. -/
def C67.loop : Prog := C67.tab [⟨0, [1], none, false⟩, ⟨0, [2], none, false⟩, ⟨0, [1, 3], none, false⟩, ⟨0, [], none, true⟩]
  [.other, .store 10 false, .other, .ret none] [10]

theorem C67.loop_wf : C67.loop.WF := C67.tab_wf (by decide) (by decide) (by decide) (by decide)

/-- Two rounds of the loop. -/
def C67.loopRun : Run C67.loop where
  path := [([], 0), ([], 1), ([], 2), ([], 1), ([], 2), ([], 3)]
  wr := fun i => if i = 1 ∨ i = 3 then some 0 else none
  site := fun _ => 10
  steps := ⟨.normal rfl (by decide), .normal rfl (by decide), .normal rfl (by decide), .normal rfl (by decide),
    .normal rfl (by decide), trivial⟩
  start := ⟨0, by decide, rfl⟩

theorem C67.loop_write {n x : Nat} (h : Writes C67.loop n x) : n = 1 ∧ x = 10 := by
  have h := C67.writes_iff.2 h
  match n, h with
  | 0, h => cases h
  | 1, h => exact ⟨rfl, (Option.some.inj h).symm⟩
  | 2, h => cases h
  | 3, h => cases h
  | n + 4, h =>
    have : C67.loop.write (n + 4) = none := by
      simp [Prog.write, C67.loop, C67.tab]
    rw [this] at h; cases h

theorem C67.loopRun_described : C67.loopRun.Described where
  site i a c hw hp := by
    have hi : i = 1 ∨ i = 3 := by
      refine Classical.byContradiction fun h => ?_
      have : C67.loopRun.wr i = none := if_neg h
      rw [this] at hw; cases hw
    rcases hi with rfl | rfl
    · cases hp; exact ⟨10, .inl rfl, List.mem_singleton.2 rfl⟩
    · cases hp; exact ⟨10, .inl rfl, List.mem_singleton.2 rfl⟩
  meet i j a c d x y _ _ _ _ h1 h2 := by
    rw [(C67.loop_write h1).2, (C67.loop_write h2).2]; decide

/-- C67 (refuted): a location that one statement writes again and again is never a fact.  The execution writes the local
variable twice, the alias sets describe it, and whatever the solver asks for, nothing but zero holds anywhere. -/
theorem C67_loop_false : C67.loop.WF ∧ C67.loopRun.Described ∧
    C67.loopRun.wr 1 = some 0 ∧ C67.loopRun.wr 3 = some 0 ∧ C67.loop.isLoc (C67.loopRun.site 0) = true ∧
    ∀ asked n d, FactReachable (C67.loop.problem [] asked) n d → d = 100 := by
  refine ⟨C67.loop_wf, C67.loopRun_described, rfl, rfl, rfl, fun asked n d h => C67_separate C67.loop_wf asked ?_ ?_ h⟩
  · intro n _ x hx a ha
    rw [(C67.loop_write hx).2] at ha
    rw [List.mem_singleton.1 ha]; decide
  · intro m _ n _ hne x y hx hy
    exact absurd ((C67.loop_write hx).1.trans (C67.loop_write hy).1.symm) hne

/-- `if (...) { x = 1; return; } else { x = 2; return; }`: statements 1 and 2 write the local 10, statements 3 and 4 return. -/
def C67.branch : Prog := C67.tab [⟨0, [1, 2], none, false⟩, ⟨0, [3], none, false⟩, ⟨0, [4], none, false⟩, ⟨0, [], none, true⟩,
  ⟨0, [], none, true⟩] [.other, .store 10 false, .store 10 false, .ret none, .ret none] [10]

theorem C67.branch_wf : C67.branch.WF := C67.tab_wf (by decide) (by decide) (by decide) (by decide)

theorem C67.branch_graph : ∀ n < 5, C67.branch.icf.isCall n = false ∧
    ∀ n' ∈ C67.branch.icf.succs n, n' < 5 ∧ (n' = 1 ∨ n' = 2 → n = 0) ∧ (n' = 3 → n = 1) ∧ (n' = 4 → n = 2) ∧ n' ≠ 0 := by
  decide

theorem C67.steps_get {l : List (List Nat × Nat)} (h : Steps p l) {i : Nat} {a b : List Nat × Nat} (ha : l[i]? = some a)
    (hb : l[i + 1]? = some b) : Step p a b := by
  induction l generalizing i with
  | nil => cases ha
  | cons x l ih =>
    cases l with
    | nil => cases hb
    | cons y l =>
      cases i with
      | zero => cases ha; cases hb; exact h.1
      | succ i => exact ih h.2 ha hb

/-- An execution of the two branches writes only in its second step. -/
theorem C67.branch_once (r : Run C67.branch) {i : Nat} {c : List Nat × Nat} (h : r.path[i]? = some c) :
    c.1 = [] ∧ c.2 < 5 ∧ (c.2 = 0 → i = 0) ∧ (c.2 = 1 ∨ c.2 = 2 → i = 1) := by
  induction i generalizing c with
  | zero =>
    obtain ⟨sp, hsp, hh⟩ := r.start
    rw [List.head?_eq_getElem?, h] at hh
    cases hh
    rw [List.mem_singleton.1 hsp]
    simp
  | succ i ih =>
    have hlt : i + 1 < r.path.length := (List.getElem?_eq_some_iff.1 h).1
    obtain ⟨a, ha⟩ : ∃ a, r.path[i]? = some a := ⟨_, List.getElem?_eq_getElem (by omega)⟩
    obtain ⟨h1, h2, h3, h4⟩ := ih ha
    have hs := C67.steps_get r.steps ha h
    cases hs with
    | @normal stk n n' _ hn =>
      obtain ⟨g1, g2, _, _, g3⟩ := (C67.branch_graph n h2).2 n' hn
      exact ⟨h1, g1, fun e => absurd e g3, fun e => by rw [h3 (g2 e)]⟩
    | @call stk n g sp h5 => rw [(C67.branch_graph n h2).1] at h5; cases h5
    | ret => cases h1
    | @past stk n r h5 => rw [(C67.branch_graph n h2).1] at h5; cases h5

theorem C67.branch_first {n d : Nat} (h : FactReachable (C67.branch.problem [] [1, 2]) n d) : d = 100 ∨ n = 4 := by
  obtain ⟨n0, d0, stk, ⟨facts, hs, hd0⟩, hr⟩ := h
  have hans : ∀ n < 5, (C67.branch.answer [] [1, 2] n).isSome = true → n = 2 := by decide
  have hedge : ∀ n < 5, ∀ n' ∈ C67.branch.icf.succs n, (n = 2 → n' = 4) ∧ n ≠ 4 := by decide
  have key : ∀ a b, FSteps (C67.branch.problem [] [1, 2]) a b → (a.1 = [] ∧ a.2.1 < 5 ∧ (a.2.2 = 100 ∨ a.2.1 = 4)) →
      (b.1 = [] ∧ b.2.1 < 5 ∧ (b.2.2 = 100 ∨ b.2.1 = 4)) := by
    intro a b hab h1
    induction hab with
    | refl => exact h1
    | tail _ hst ih =>
      cases hst with
      | @normal stk n s n' t _ hn hd =>
        obtain ⟨i1, i2, i3⟩ := ih
        obtain ⟨e1, e2⟩ := hedge n i2 n' hn
        refine ⟨i1, ((C67.branch_graph n i2).2 n' hn).1, ?_⟩
        rcases (C67_normal ..).1 hd with h | ⟨_, g, h, _⟩
        · exact .inl (h.trans (i3.resolve_right e2))
        · exact .inr (e1 (hans n i2 (by rw [h]; rfl)))
      | @call stk n s g sp t h5 => have := (C67.branch_graph n ih.2.1).1; rw [show C67.branch.icf.isCall n = true from h5] at this; cases this
      | ret => cases ih.1
      | @callToRet stk n s r t h5 => have := (C67.branch_graph n ih.2.1).1; rw [show C67.branch.icf.isCall n = true from h5] at this; cases this
      | summary _ _ h => cases h
  obtain ⟨sp, hsp, e⟩ := List.mem_map.1 hs
  cases e
  have h0 : d0 = 100 := by
    rcases hd0 with h | h
    · exact List.mem_singleton.1 h
    · exact h
  have h1 : n0 < 5 := by rw [List.mem_singleton.1 hsp]; decide
  exact (key _ _ hr ⟨rfl, h1, .inl h0⟩).2.2

/-- Through the first branch, with the write. -/
def C67.branchRun : Run C67.branch where
  path := [([], 0), ([], 1), ([], 3)]
  wr := fun i => if i = 1 then some 0 else none
  site := fun _ => 10
  steps := ⟨.normal rfl (by decide), .normal rfl (by decide), trivial⟩
  start := ⟨0, by decide, rfl⟩

/-- C67 (refuted): the results depend on the order in which the solver asks for flow functions, and locations that every
execution writes at most once are found to be mutable: whether the local variable is a fact at the end of the first branch
depends on which branch was asked for first. -/
theorem C67_order_false : C67.branch.WF ∧
    FactReachable (C67.branch.problem [] [2, 1]) 3 10 ∧ ¬ FactReachable (C67.branch.problem [] [1, 2]) 3 10 ∧
    ∀ (r : Run C67.branch) (i j : Nat) (c d : List Nat × Nat) (x y : Nat), r.path[i]? = some c → r.path[j]? = some d → C67.branch.write c.2 = some x →
      C67.branch.write d.2 = some y → i = j := by
  refine ⟨C67.branch_wf, ?_, fun h => ?_, ?_⟩
  · exact C67_generated C67.branch_wf [] [2, 1] (n := 1) ⟨C67.branchRun, ([], 1), by decide, rfl⟩
      (show C67.branch.answer [] [2, 1] 1 = some [10] by decide) (by decide) (.succ rfl (by decide))
  · rcases C67.branch_first h with h | h <;> cases h
  · intro r i j c d x y hi hj hx hy
    have hw : ∀ n < 5, (C67.branch.write n).isSome = true → n = 1 ∨ n = 2 := by decide
    obtain ⟨_, h1, _, h2⟩ := C67.branch_once r hi
    obtain ⟨_, h3, _, h4⟩ := C67.branch_once r hj
    rw [h2 (hw _ h1 (by rw [hx]; rfl)), h4 (hw _ h3 (by rw [hy]; rfl))]

/-! ## Instances -/

/-- `x = 1; x = 2; return`: statements 0 and 1 write the local 10. -/
def C67.seq : Prog := C67.tab [⟨0, [1], none, false⟩, ⟨0, [2], none, false⟩, ⟨0, [], none, true⟩]
  [.store 10 false, .store 10 false, .ret none] [10]

theorem C67.seq_wf : C67.seq.WF := C67.tab_wf (by decide) (by decide) (by decide) (by decide)

def C67.seqRun : Run C67.seq where
  path := [([], 0), ([], 1), ([], 2)]
  wr := fun i => if i = 0 ∨ i = 1 then some 0 else none
  site := fun _ => 10
  steps := ⟨.normal rfl (by decide), .normal rfl (by decide), trivial⟩
  start := ⟨0, by decide, rfl⟩

theorem C67.seq_write {n x : Nat} (h : Writes C67.seq n x) : x = 10 := by
  have h := C67.writes_iff.2 h
  match n, h with
  | 0, h => exact (Option.some.inj h).symm
  | 1, h => exact (Option.some.inj h).symm
  | 2, h => cases h
  | n + 3, h =>
    have : C67.seq.write (n + 3) = none := by
      simp [Prog.write, C67.seq, C67.tab]
    rw [this] at h; cases h

theorem C67.seqRun_described : C67.seqRun.Described where
  site i a c hw hp := by
    have hi : i = 0 ∨ i = 1 := by
      refine Classical.byContradiction fun h => ?_
      have : C67.seqRun.wr i = none := if_neg h
      rw [this] at hw; cases hw
    rcases hi with rfl | rfl
    · cases hp; exact ⟨10, .inl rfl, List.mem_singleton.2 rfl⟩
    · cases hp; exact ⟨10, .inl rfl, List.mem_singleton.2 rfl⟩
  meet i j a c d x y _ _ _ _ h1 h2 := by
    rw [C67.seq_write h1, C67.seq_write h2]; decide

/-- `C67_mutable_partial` on it, in both orders. -/
example (asked : List Nat) (h : asked = [0, 1] ∨ asked = [1, 0]) : FactReachable (C67.seq.problem [] asked) 2 10 := by
  have h0 : 0 ∈ asked ∧ 1 ∈ asked := by rcases h with rfl | rfl <;> decide
  obtain ⟨n, hn, ptr, _, _, hw⟩ := C67_mutable_partial C67.seq_wf [] asked C67.seqRun C67.seqRun_described (i := 0) (j := 1) (a := 0)
    rfl rfl (by decide) rfl rfl h0.1 h0.2 rfl
  refine (hw 2 ?_).1
  rcases hn with rfl | rfl
  · exact .trans (.succ rfl (by decide)) (.succ (n := 1) rfl (by decide))
  · exact .succ rfl (by decide)

/-- `C67_answer`: first request an initialization, second a fact, and with an object used before facts both times. -/
example : C67.seq.answer [] [0, 1] 0 = none ∧ C67.seq.answer [] [0, 1] 1 = some [10] ∧
    C67.seq.state [] [0, 1] = [10] ∧ C67.seq.answer (C67.seq.state [] [0, 1]) [0, 1] 0 = some [10] := by decide

/-- `C67_other`: a store of the vtable, and a memory intrinsic for comparison. -/
example : (∀ ptr, ¬ Writes (C67.tab [⟨0, [], none, true⟩] [.store 10 true] [10]) 0 ptr) ∧
    Writes (C67.tab [⟨0, [], none, true⟩] [.mem 10] [10]) 0 10 :=
  ⟨(by rintro ptr (h | h) <;> cases h), .inr rfl⟩

/-- `C67_again` on it. -/
example : (C67.seq.answer (C67.seq.state [] [0, 1]) [0, 1] 0).isSome = true :=
  C67_again (asked := [0, 1]) (by decide) (by decide) (show Writes C67.seq 0 10 from .inl rfl) (by decide)

/-- `C67_separate`: the loop. -/
example {n d : Nat} (h : FactReachable (C67.loop.problem [] [1]) n d) : d = 100 := C67_loop_false.2.2.2.2.2 _ n d h

/-- `C67_report_partial`: of three locals one is a fact at the exit 2 of function 0; without facts all are dropped. -/
example : let q := C67.tab [] [] [10, 11, 12]
    q.report (fun e => if e = 2 then [100, 11] else []) [(0, 2)] [10, 11, 12] = [10, 12] ∧
    q.report (fun _ => []) [(0, 2)] [10, 11, 12] = [] ∧ q.report (fun _ => []) [(1, 7)] [10, 11, 12] = [10, 11, 12] := by decide

/-- A caller (statements 0-2) passes its local 10 to a function (statements 3-5) with the parameter 20, of which 10 is an alias, and
which writes it twice. -/
def C67.callee : Prog where
  inst := fun n => [Inst.other, .call [10], .ret none, .store 20 false, .store 20 false, .ret none][n]?.getD .other
  icf := tabICFG [⟨0, [1], none, false⟩, ⟨0, [], some ([3], [2]), false⟩, ⟨0, [], none, true⟩,
    ⟨3, [4], none, false⟩, ⟨3, [5], none, false⟩, ⟨3, [], none, true⟩]
  ir := ⟨100, fun v => v == 100⟩
  kind := fun v => if v = 10 then .inst true 0 else if v = 20 then .arg 3 else .other
  isPtr := fun v => v == 10 || v == 20
  alias := fun v => if v = 10 ∨ v = 20 then [10, 20] else [v]
  callee := fun f => ⟨f != 3, if f = 3 then [20] else [], false, []⟩
  entries := [0]

/-- `C67_call`, `C67_ret`, `C67_past`, `C67_normal`: the fact for the parameter goes in and comes back as the argument; the one
for the local itself stays behind. -/
example : let P := C67.callee.problem [] [3, 4]
    P.callFlow 1 3 10 = [20] ∧ P.callFlow 1 3 100 = [100] ∧ P.callFlow 1 3 11 = [] ∧ P.retFlow 1 3 5 2 20 = [10] ∧
    P.retFlow 1 3 5 2 10 = [] ∧ P.ctrFlow 1 2 10 = [10] ∧ P.normalFlow 3 4 100 = [100] ∧ P.normalFlow 4 5 100 = [10, 20, 100] ∧
    P.normalFlow 4 5 11 = [11] := by decide

end Phasar.Const
