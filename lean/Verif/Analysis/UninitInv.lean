import Verif.Analysis.UninitSem
import Verif.Store.LLVMFlowProps
/-!
# The invariant of executions for the analysis of uninitialized variables (lemmas for C58)
-/
namespace Phasar.Uninit
open Phasar Phasar.IDE FlowFn

variable {p : Prog}

/-! ## Undefined values -/

theorem bad_upd {mem : Loc → RVal} {ℓ : Loc} {x y : RVal} (h : Bad (updM mem ℓ x) y) : Bad mem x ∨ Bad mem y := by
  induction h with
  | undef => exact .inr .undef
  | @ptr m _ ih =>
    rcases ih with h | h
    · exact .inl h
    · unfold updM at h
      split at h
      · exact .inl h
      · exact .inr (.ptr h)

theorem not_bad_data {mem : Loc → RVal} : ¬ Bad mem .data := by rintro ⟨⟩

/-- A new object changes nothing for old values. -/
theorem bad_new {mem : Loc → RVal} {next : Nat} {x y : RVal} (hm : ∀ ℓ, Old next (mem ℓ)) (hy : Old next y)
    (h : Bad (updM mem (.obj next) x) y) : Bad mem y := by
  induction h with
  | undef => exact .undef
  | @ptr m _ ih =>
    have hne : m ≠ .obj next := by rintro rfl; exact Nat.lt_irrefl _ hy
    unfold updM at ih
    rw [if_neg hne] at ih
    exact .ptr (ih (hm m))

theorem old_mono {next next' : Nat} (h : next ≤ next') {x : RVal} (hx : Old next x) : Old next' x := by
  cases x with
  | ptr ℓ => cases ℓ with
    | obj i => exact Nat.lt_of_lt_of_le hx h
    | glob k => trivial
  | _ => trivial

theorem val_old {regs : Nat → RVal} {next : Nat} (h : ∀ k, Old next (regs k)) (v : Val) : Old next (p.val regs v) := by
  cases v with
  | node k =>
    show Old next (if p.isConst k then .ptr (.glob k) else regs k)
    split
    · trivial
    · exact h k
  | _ => trivial

theorem updR_old {regs : Nat → RVal} {next n : Nat} {x : RVal} (h : ∀ k, Old next (regs k)) (hx : Old next x) (k : Nat) :
    Old next (updR regs n x k) := by
  unfold updR
  split
  · exact hx
  · exact h k

theorem val_reg {regs : Nat → RVal} {k : Nat} (h : p.isConst k = false) : p.val regs (.node k) = regs k := by
  show (if p.isConst k then RVal.ptr (.glob k) else regs k) = _
  rw [h]; rfl

/-- An undefined operand is a literal or a register. -/
theorem val_bad {regs : Nat → RVal} {mem : Loc → RVal} {v : Val} (hg : ∀ g, p.isConst g = true → ¬ Bad mem (.ptr (.glob g)))
    (h : Bad mem (p.val regs v)) : v.isUndef = true ∨ ∃ k, v = .node k ∧ p.isConst k = false ∧ Bad mem (regs k) := by
  cases v with
  | zero => exact absurd h not_bad_data
  | lit => exact absurd h not_bad_data
  | undef => exact .inl rfl
  | node k =>
    replace h : Bad mem (if p.isConst k then .ptr (.glob k) else regs k) := h
    split at h
    · rename_i hc; exact absurd h (hg k hc)
    · rename_i hc; exact .inr ⟨k, rfl, by simpa using hc, h⟩

/-! ## Steps of the flow functions -/

/-- A run of the flow functions from a seed. -/
def Prog.Run (p : Prog) (cs : List Nat) (n : Nat) (d : Val) : Prop :=
  ∃ n0 d0, IsSeedFact p.problem n0 d0 ∧ FSteps p.problem ([], n0, d0) (cs, n, d)

theorem Prog.Run.step {cs cs' : List Nat} {n n' : Nat} {d d' : Val} (h : p.Run cs n d)
    (hs : FStep p.problem (cs, n, d) (cs', n', d')) : p.Run cs' n' d' := by
  obtain ⟨n0, d0, h0, h1⟩ := h
  exact ⟨n0, d0, h0, .tail h1 hs⟩

theorem mem_normalFlow {n n' : Nat} {s t : Val} : t ∈ p.normalFlow n n' s ↔
    match p.inst n with
    | .store v ptr => (t = s ∧ (s = ptr → s = v ∨ (s = .zero ∧ v.isUndef = true))) ∨
        (t = ptr ∧ (s = v ∨ (s = .zero ∧ v.isUndef = true)))
    | .alloca ty => t = s ∨ (s = .zero ∧ ty.tracked = true ∧ t = .node n)
    | _ => t = s ∨ (t = .node n ∧ ∃ o ∈ p.operands n, o = s ∨ o.isUndef = true) := by
  have gen : t ∈ (match p.firstUse n s with
      | some _ => FSet.ofList [s, .node n]
      | none => FSet.ofList [s]) ↔ t = s ∨ (t = .node n ∧ ∃ o ∈ p.operands n, o = s ∨ o.isUndef = true) := by
    unfold Prog.firstUse
    cases hf : (p.operands n).find? (fun o => decide (o = s) || o.isUndef) with
    | none =>
      rw [List.find?_eq_none] at hf
      simp only [C50.mem_ofList, List.mem_singleton]
      constructor
      · exact .inl
      · rintro (h | ⟨_, o, ho, h⟩)
        · exact h
        · exact absurd (by simpa using h) (hf o ho)
    | some o =>
      have h1 := List.find?_some hf
      have h2 := List.mem_of_find?_eq_some hf
      simp only [C50.mem_ofList, List.mem_cons, List.not_mem_nil, or_false]
      constructor
      · rintro (h | h)
        · exact .inl h
        · exact .inr ⟨h, o, h2, by simpa using h1⟩
      · rintro (h | ⟨h, _⟩)
        · exact .inl h
        · exact .inr h
  unfold Prog.normalFlow
  cases hi : p.inst n with
  | store v ptr =>
    dsimp only
    split
    · rename_i hc
      simp only [C50.mem_ofList, List.mem_cons, List.not_mem_nil, or_false]
      grind
    · rename_i hc
      split
      · rename_i hs
        subst hs
        simp only [List.not_mem_nil, false_iff]
        grind
      · simp only [C50.mem_ofList, List.mem_cons, List.not_mem_nil, or_false]
        grind
  | alloca ty =>
    dsimp only
    split
    · split
      · simp only [C50.mem_ofList, List.mem_cons, List.not_mem_nil, or_false]; grind
      · simp only [C50.mem_ofList, List.mem_cons, List.not_mem_nil, or_false]; grind
    · simp only [C50.mem_ofList, List.mem_cons, List.not_mem_nil, or_false]; grind
  | load => exact gen
  | gep => exact gen
  | cast => exact gen
  | phi => exact gen
  | op => exact gen
  | call => exact gen
  | ret => exact gen

theorem mem_zip_iff {A B : Type} {xs : List A} {ys : List B} {x : A} {y : B} :
    (x, y) ∈ xs.zip ys ↔ ∃ i : Nat, xs[i]? = some x ∧ ys[i]? = some y := by
  rw [List.mem_iff_getElem?]
  simp only [List.getElem?_zip_eq_some]

theorem mem_callFlow {n f : Nat} {s t : Val} (hc : p.callOrInvoke n = true) : t ∈ p.callFlow n f s ↔
    (s = .zero ∧ t = .zero) ∨
    (s ≠ .zero ∧ ∃ (i k : Nat), (p.params f)[i]? = some k ∧ (p.args n)[i]? = some s ∧ t = .node k) := by
  unfold Prog.callFlow
  rw [if_pos hc]
  split
  · rename_i hs
    simp only [C50.mem_ofList, List.mem_map, List.mem_filter, decide_eq_true_eq, Prod.exists, mem_zip_iff]
    constructor
    · rintro ⟨k, a, ⟨⟨i, h1, h2⟩, rfl⟩, rfl⟩
      exact .inr ⟨hs, i, k, h1, h2, rfl⟩
    · rintro (⟨h, _⟩ | ⟨_, i, k, h1, h2, rfl⟩)
      · exact absurd h hs
      · exact ⟨k, s, ⟨⟨i, h1, h2⟩, rfl⟩, rfl⟩
  · rename_i hs
    have hs := Classical.not_not.1 hs
    subst hs
    simp

theorem mem_retFlow {c f e r : Nat} {s t : Val} (hc : p.callOrInvoke c = true) : t ∈ p.retFlow c f e r s ↔
    ((p.operands e)[0]? = some s ∧ t = .node c) ∨
    ∃ (g i k : Nat), p.called c = some g ∧ (p.params g)[i]? = some k ∧ (p.args c)[i]? = some t ∧ s = .node k ∧
      p.isPtr (.node k) = true := by
  have key : t ∈ p.retArgs c s ↔ ∃ (g i k : Nat), p.called c = some g ∧ (p.params g)[i]? = some k ∧ (p.args c)[i]? = some t ∧ s = .node k ∧
      p.isPtr (.node k) = true := by
    unfold Prog.retArgs
    cases hg : p.called c with
    | none => simp
    | some g =>
      simp only [List.mem_map, List.mem_filter, Bool.and_eq_true, decide_eq_true_eq, Prod.exists, mem_zip_iff, Option.some.injEq]
      constructor
      · rintro ⟨k, a, ⟨⟨i, h1, h2⟩, rfl, h3⟩, rfl⟩
        exact ⟨g, i, k, rfl, h1, h2, rfl, h3⟩
      · rintro ⟨_, i, k, rfl, h1, h2, rfl, h3⟩
        exact ⟨k, t, ⟨⟨i, h1, h2⟩, rfl, h3⟩, rfl⟩
  unfold Prog.retFlow
  rw [if_pos hc]
  simp only [C50.mem_ofList, List.mem_append, key]
  constructor
  · rintro (h | h)
    · split at h
      · exact .inl ⟨by assumption, List.mem_singleton.1 h⟩
      · cases h
    · exact .inr h
  · rintro (⟨h1, h2⟩ | h)
    · left; rw [if_pos h1]; exact List.mem_singleton.2 h2
    · exact .inr h

theorem mem_ctrFlow {n r : Nat} {s t : Val} : t ∈ p.ctrFlow n r s ↔ t = s ∧ ¬ (p.isPtr s = true ∧ s ∈ p.args n) := by
  unfold Prog.ctrFlow
  split
  · rename_i h
    rw [Bool.and_eq_true, decide_eq_true_eq] at h
    simp [h.1, h.2]
  · rename_i h
    rw [Bool.and_eq_true, decide_eq_true_eq] at h
    simp only [C50.mem_ofList, List.mem_singleton]
    exact ⟨fun e => ⟨e, h⟩, fun e => e.1⟩

/-! ## The invariant -/

/-- What holds of the current activation. -/
structure Prog.ActOk (p : Prog) (cs : List Nat) (n : Nat) (regs : Nat → RVal) (mem : Loc → RVal) : Prop where
  zero : p.Run cs n .zero
  cov : ∀ k, p.isConst k = false → Bad mem (regs k) → p.Run cs n (.node k)

/-- What holds of an activation that was suspended at the call `fr.c`, seen from the activation `n`, `regs` it started. -/
structure Prog.Link (p : Prog) (cs : List Nat) (fr : Frame) (n : Nat) (regs : Nat → RVal) (mem : Loc → RVal) : Prop where
  call : p.icf.isCall fr.c = true
  callee : p.icf.funOf n ∈ p.icf.callees fr.c
  body : p.isDecl (p.icf.funOf n) = false
  formals : ∀ (i k : Nat) (a : Val), (p.params (p.icf.funOf n))[i]? = some k → (p.args fr.c)[i]? = some a →
    regs k = p.val fr.regs a
  zero : p.Run cs fr.c .zero
  cov : ∀ k, p.isConst k = false → Bad mem (fr.regs k) →
    p.Run cs fr.c (.node k) ∨ (.node k ∈ p.args fr.c ∧ p.isPtr (.node k) = true)

/-- The suspended activations. -/
def Prog.Frames (p : Prog) (mem : Loc → RVal) : List Frame → Nat → (Nat → RVal) → Prop
  | [], _, _ => True
  | fr :: rest, n, regs => p.Link (rest.map Frame.c) fr n regs mem ∧ Prog.Frames p mem rest fr.c fr.regs

/-- The invariant of executions. -/
structure Prog.Inv (p : Prog) (s : CState) : Prop where
  act : p.ActOk (s.stk.map Frame.c) s.n s.regs s.mem
  frames : p.Frames s.mem s.stk s.n s.regs
  regsOld : ∀ k, Old s.next (s.regs k)
  stkOld : ∀ fr ∈ s.stk, ∀ k, Old s.next (fr.regs k)
  memOld : ∀ ℓ, Old s.next (s.mem ℓ)

/-- The suspended activations keep their invariant when the memory changes and parameters keep their values. -/
theorem frames_upd {mem mem' : Loc → RVal} {stk : List Frame} {n n' : Nat} {regs regs' : Nat → RVal}
    (h : p.Frames mem stk n regs) (hf : p.icf.funOf n' = p.icf.funOf n)
    (hp : ∀ k ∈ p.params (p.icf.funOf n), regs' k = regs k)
    (hb : ∀ fr ∈ stk, ∀ k, p.isConst k = false → Bad mem' (fr.regs k) →
      Bad mem (fr.regs k) ∨ (.node k ∈ p.args fr.c ∧ p.isPtr (.node k) = true)) : p.Frames mem' stk n' regs' := by
  induction stk generalizing n n' regs regs' with
  | nil => trivial
  | cons fr rest ih =>
    obtain ⟨hl, hr⟩ := h
    refine ⟨⟨hl.call, hf ▸ hl.callee, hf ▸ hl.body, ?_, hl.zero, ?_⟩,
      ih hr rfl (fun _ _ => rfl) fun fr' h' => hb fr' (List.mem_cons_of_mem _ h')⟩
    · intro i k a hk ha
      rw [hf] at hk
      rw [hp k (List.mem_of_getElem? hk)]
      exact hl.formals i k a hk ha
    · intro k hk h
      rcases hb fr List.mem_cons_self k hk h with h | h
      · exact hl.cov k hk h
      · exact .inr h

theorem Prog.Run.zero_normal (wf : p.WF) {cs : List Nat} {n n' : Nat} (hc : p.icf.isCall n = false) (hn : n' ∈ p.icf.succs n)
    (h : p.Run cs n .zero) : p.Run cs n' .zero := by
  refine h.step (.normal hc hn ((mem_normalFlow (n' := n')).2 ?_))
  have hz := wf.operand n
  unfold Prog.operands at hz
  split
  · rename_i v ptr hi
    rw [hi] at hz
    exact .inl ⟨rfl, fun e => absurd (e ▸ List.mem_cons_of_mem _ List.mem_cons_self) hz⟩
  · exact .inl rfl
  · exact .inl rfl

theorem Prog.Run.zero_ctr (wf : p.WF) {cs : List Nat} {n r : Nat} (hc : p.icf.isCall n = true) (hr : r ∈ p.icf.retSites n)
    (h : p.Run cs n .zero) : p.Run cs r .zero := by
  refine h.step (.callToRet hc hr ((mem_ctrFlow (r := r)).2 ⟨rfl, fun e => ?_⟩))
  obtain ⟨as, hi⟩ := (wf.isCall n).1 hc
  have hz := wf.operand n
  unfold Prog.operands at hz
  have e := e.2
  unfold Prog.args at e
  rw [hi] at hz e
  exact hz e

/-- A statement other than a store keeps facts. -/
theorem Prog.Run.keep {cs : List Nat} {n n' : Nat} {d : Val} (hc : p.icf.isCall n = false) (hn : n' ∈ p.icf.succs n)
    (hst : ∀ v, p.inst n ≠ .store v d) (h : p.Run cs n d) : p.Run cs n' d := by
  refine h.step (.normal hc hn ((mem_normalFlow (n' := n')).2 ?_))
  split
  · rename_i v ptr hi
    exact .inl ⟨rfl, fun e => absurd hi (e ▸ hst v)⟩
  · exact .inl rfl
  · exact .inl rfl

/-- A computation passes the fact on to its result. -/
theorem Prog.Run.result {cs : List Nat} {n n' : Nat} {d o : Val} (hc : p.icf.isCall n = false) (hn : n' ∈ p.icf.succs n)
    (hst : ∀ v ptr, p.inst n ≠ .store v ptr) (hal : ∀ t, p.inst n ≠ .alloca t) (ho : o ∈ p.operands n)
    (hd : o = d ∨ o.isUndef = true) (h : p.Run cs n d) : p.Run cs n' (.node n) := by
  refine h.step (.normal hc hn ((mem_normalFlow (n' := n')).2 ?_))
  split
  · rename_i v ptr hi; exact absurd hi (hst v ptr)
  · rename_i t hi; exact absurd hi (hal t)
  · exact .inr ⟨rfl, o, ho, hd⟩

/-- The fact for an undefined operand: its register or zero. -/
theorem Prog.ActOk.operand {cs : List Nat} {n : Nat} {regs : Nat → RVal} {mem : Loc → RVal} (h : p.ActOk cs n regs mem)
    (hg : ∀ g, p.isConst g = true → ¬ Bad mem (.ptr (.glob g))) {v : Val} (hv : Bad mem (p.val regs v)) :
    ∃ d, p.Run cs n d ∧ ((v = d ∧ ∃ k, d = .node k) ∨ (v.isUndef = true ∧ d = .zero)) := by
  rcases val_bad hg hv with hu | ⟨k, rfl, hk, hb⟩
  · exact ⟨.zero, h.zero, .inr ⟨hu, rfl⟩⟩
  · exact ⟨.node k, h.cov k hk hb, .inl ⟨rfl, k, rfl⟩⟩

/-- The result of a computation one of whose operands is undefined. -/
theorem Prog.ActOk.result {cs : List Nat} {n n' : Nat} {regs : Nat → RVal} {mem : Loc → RVal} (h : p.ActOk cs n regs mem)
    (hg : ∀ g, p.isConst g = true → ¬ Bad mem (.ptr (.glob g))) (hc : p.icf.isCall n = false) (hn : n' ∈ p.icf.succs n)
    (hst : ∀ v ptr, p.inst n ≠ .store v ptr) (hal : ∀ t, p.inst n ≠ .alloca t) {v : Val} (ho : v ∈ p.operands n)
    (hv : Bad mem (p.val regs v)) : p.Run cs n' (.node n) := by
  obtain ⟨d, hd, h1⟩ := h.operand hg hv
  refine hd.result hc hn hst hal ho ?_
  rcases h1 with ⟨h1, _⟩ | ⟨h1, _⟩
  · exact .inl h1
  · exact .inr h1

theorem inv_normal (wf : p.WF) (fit : p.Fit) {stk : List Frame} {n : Nat} {regs : Nat → RVal} {mem : Loc → RVal} {next : Nat}
    {n' : Nat} {x : RVal} {mem' : Loc → RVal} {next' : Nat} (hi : p.Inv ⟨stk, n, regs, mem, next⟩)
    (hu : p.Unaliased ⟨stk, n, regs, mem, next⟩) (hc : p.icf.isCall n = false) (hn : n' ∈ p.icf.succs n)
    (he : p.Effect n regs mem next x mem' next') : p.Inv ⟨stk, n', updR regs n x, mem', next'⟩ := by
  have hst : p.Stmt n := .inr (.inr fun e => by rw [e] at hn; cases hn)
  have hfun := wf.icf.succs_fun _ _ hn
  have hpar : ∀ k ∈ p.params (p.icf.funOf n), updR regs n x k = regs k := by
    intro k hk
    unfold updR
    rw [if_neg]
    rintro rfl
    exact (wf.params _ _ hk).1 hst
  have hg := hu.globals
  have hact := hi.act
  have hzero := Prog.Run.zero_normal wf hc hn hact.zero
  -- statements that leave the memory alone
  have pure : ∀ x, next' = next → mem' = mem → (∀ v ptr, p.inst n ≠ .store v ptr) → Old next x →
      (Bad mem x → p.Run (stk.map Frame.c) n' (.node n)) → p.Inv ⟨stk, n', updR regs n x, mem', next'⟩ := by
    rintro x rfl rfl hns hox hres
    refine ⟨⟨hzero, fun k hk hb => ?_⟩, frames_upd hi.frames hfun ?_ fun _ _ _ _ h => .inl h, fun k => ?_, hi.stkOld, hi.memOld⟩
    · dsimp only at hb
      unfold updR at hb
      split at hb
      · rename_i e; subst e; exact hres hb
      · exact (hact.cov k hk hb).keep hc hn fun v => hns v _
    · intro k hk
      show updR regs n x k = _
      unfold updR
      rw [if_neg]
      rintro rfl
      exact (wf.params _ _ hk).1 hst
    · show Old _ (updR regs n x k)
      unfold updR
      split
      · exact hox
      · exact hi.regsOld k
  have ho := wf.operand n
  cases he with
  | @alloca t ht =>
    have hnew : ∀ y, Old next y → Bad (updM mem (.obj next) .undef) y → Bad mem y := fun y hy h => bad_new hi.memOld hy h
    refine ⟨⟨hzero, fun k hk hb => ?_⟩, frames_upd hi.frames hfun hpar fun fr hfr k _ h => .inl (hnew _ (hi.stkOld fr hfr k) h),
      fun k => ?_, fun fr hfr k => old_mono (Nat.le_succ _) (hi.stkOld fr hfr k), fun ℓ => ?_⟩
    · dsimp only at hb
      unfold updR at hb
      split at hb
      · rename_i e; subst e
        refine hact.zero.step (.normal hc hn ((mem_normalFlow (n' := n')).2 ?_))
        dsimp only
        rw [ht]
        refine .inr ⟨rfl, ?_, rfl⟩
        rcases fit .types _ _ ht with rfl | rfl | rfl | rfl <;> rfl
      · exact (hact.cov k hk (hnew _ (hi.regsOld k) hb)).keep hc hn fun v => by rw [ht]; intro e; cases e
    · show Old _ (updR regs n _ k)
      unfold updR
      split
      · exact Nat.lt_succ_self _
      · exact old_mono (Nat.le_succ _) (hi.regsOld k)
    · show Old _ (updM mem _ _ ℓ)
      unfold updM
      split
      · trivial
      · exact old_mono (Nat.le_succ _) (hi.memOld ℓ)
  | @store v ptr ℓ hs hp =>
    have gen : ∀ k, ptr = .node k → Bad mem (p.val regs v) → p.Run (stk.map Frame.c) n' (.node k) := by
      intro k hk hb
      obtain ⟨d, hd, h1⟩ := hact.operand hg hb
      refine hd.step (.normal hc hn ((mem_normalFlow (n' := n')).2 ?_))
      dsimp only
      rw [hs]
      refine .inr ⟨hk.symm, ?_⟩
      rcases h1 with ⟨h1, _⟩ | ⟨h1, h2⟩
      · exact .inl h1.symm
      · exact .inr ⟨h2, h1⟩
    refine ⟨⟨hzero, fun k hk hb => ?_⟩, frames_upd hi.frames hfun hpar fun fr hfr k hk h => ?_, fun k => ?_, hi.stkOld, fun m => ?_⟩
    · dsimp only at hb
      unfold updR at hb
      split at hb
      · exact absurd hb not_bad_data
      · by_cases hpk : ptr = .node k
        · -- through the pointer operand
          refine gen k hpk ?_
          have hv : regs k = .ptr ℓ := by
            rw [hpk, val_reg hk] at hp
            exact hp
          rw [hv] at hb
          cases hb with
          | ptr hb =>
            unfold updM at hb
            rw [if_pos rfl] at hb
            exact (bad_upd (mem := mem) (ℓ := ℓ) hb).elim id id
        · refine (hact.cov k hk ?_).keep hc hn fun v' e => by rw [hs] at e; cases e; exact hpk rfl
          rcases bad_upd hb with h | h
          · exact (hu.top v ptr ℓ hs hp h k hk hb).resolve_right hpk
          · exact h
    · rcases bad_upd h with hb | hb
      · exact hu.frames v ptr ℓ hs hp hb fr hfr k hk h
      · exact .inl hb
    · show Old _ (updR regs n _ k)
      unfold updR
      split
      · trivial
      · exact hi.regsOld k
    · show Old _ (updM mem _ _ m)
      unfold updM
      split
      · exact val_old hi.regsOld v
      · exact hi.memOld m
  | @load ptr ℓ hl hp =>
    refine pure _ rfl rfl (fun _ _ e => by rw [hl] at e; cases e) (hi.memOld ℓ) fun hb => ?_
    refine hact.result hg hc hn (fun _ _ e => by rw [hl] at e; cases e) (fun _ e => by rw [hl] at e; cases e) (v := ptr)
      (by unfold Prog.operands; rw [hl]; simp) ?_
    rw [hp]; exact .ptr hb
  | @gep base idx hl =>
    exact pure _ rfl rfl (fun _ _ e => by rw [hl] at e; cases e) (val_old hi.regsOld _) fun hb =>
      hact.result hg hc hn (fun _ _ e => by rw [hl] at e; cases e) (fun _ e => by rw [hl] at e; cases e) (v := base)
        (by unfold Prog.operands; rw [hl]; simp) hb
  | @gepUndef base idx v hl hv hx =>
    exact pure _ rfl rfl (fun _ _ e => by rw [hl] at e; cases e) trivial fun hb =>
      hact.result hg hc hn (fun _ _ e => by rw [hl] at e; cases e) (fun _ e => by rw [hl] at e; cases e) (v := v)
        (by unfold Prog.operands; rw [hl]; exact .tail _ hv) (hx ▸ hb)
  | @cast v hl =>
    exact pure _ rfl rfl (fun _ _ e => by rw [hl] at e; cases e) (val_old hi.regsOld _) fun hb =>
      hact.result hg hc hn (fun _ _ e => by rw [hl] at e; cases e) (fun _ e => by rw [hl] at e; cases e) (v := v)
        (by unfold Prog.operands; rw [hl]; simp) hb
  | @phi ops v hl hv =>
    exact pure _ rfl rfl (fun _ _ e => by rw [hl] at e; cases e) (val_old hi.regsOld _) fun hb =>
      hact.result hg hc hn (fun _ _ e => by rw [hl] at e; cases e) (fun _ e => by rw [hl] at e; cases e) (v := v)
        (by unfold Prog.operands; rw [hl]; exact hv) hb
  | @opData ops hl =>
    exact pure _ rfl rfl (fun _ _ e => by rw [hl] at e; cases e) trivial fun hb => absurd hb not_bad_data
  | @op ops v hl hv =>
    exact pure _ rfl rfl (fun _ _ e => by rw [hl] at e; cases e) (val_old hi.regsOld _) fun hb =>
      hact.result hg hc hn (fun _ _ e => by rw [hl] at e; cases e) (fun _ e => by rw [hl] at e; cases e) (v := v)
        (by unfold Prog.operands; rw [hl]; exact hv) hb

theorem inv_step (wf : p.WF) (fit : p.Fit) {s t : CState} (hi : p.Inv s) (hu : p.Unaliased s) (hs : p.CStep s t) : p.Inv t := by
  cases hs with
  | normal hc hn he => exact inv_normal wf fit hi hu hc hn he
  | @call stk n regs mem next f sp regs' hc hf hd hsp hform hrest =>
    have hact := hi.act
    have hfun : p.icf.funOf sp = f := wf.icf.start_fun _ _ hsp
    have hci := fit .noCallBr n f hf hd
    have arg : ∀ i k : Nat, (p.params f)[i]? = some k → ∃ a, (p.args n)[i]? = some a := by
      intro i k hk
      have h1 := (List.getElem?_eq_some_iff.1 hk).1
      exact ⟨_, List.getElem?_eq_getElem (Nat.lt_of_lt_of_le h1 (wf.arity n f hf hd))⟩
    have hval : ∀ k, regs' k = .data ∨ ∃ (i : Nat) (a : Val), (p.params f)[i]? = some k ∧ (p.args n)[i]? = some a ∧ regs' k = p.val regs a := by
      intro k
      by_cases hk : k ∈ p.params f
      · obtain ⟨i, hi'⟩ := List.mem_iff_getElem?.1 hk
        obtain ⟨a, ha⟩ := arg i k hi'
        exact .inr ⟨i, a, hi', ha, hform i k a hi' ha⟩
      · exact .inl (hrest k hk)
    refine ⟨⟨?_, fun k hk hb => ?_⟩, ⟨⟨hc, hfun ▸ hf, hfun ▸ hd, ?_, hact.zero, fun k hk hb => .inl (hact.cov k hk hb)⟩, hi.frames⟩,
      fun k => ?_, ?_, hi.memOld⟩
    · exact hact.zero.step (.call hc hf rfl hsp ((mem_callFlow hci).2 (.inl ⟨rfl, rfl⟩)))
    · dsimp only at hb
      rcases hval k with e | ⟨i, a, h1, h2, e⟩
      · rw [e] at hb; exact absurd hb not_bad_data
      · rw [e] at hb
        rcases val_bad hu.globals hb with h | ⟨j, rfl, hj, hbj⟩
        · rw [fit .args n f hf hd a (List.mem_of_getElem? h2)] at h; cases h
        · exact (hact.cov j hj hbj).step (.call hc hf rfl hsp ((mem_callFlow hci).2
            (.inr ⟨(fun h => by cases h), i, k, h1, h2, rfl⟩)))
    · intro i k a hk ha
      rw [hfun] at hk
      exact hform i k a hk ha
    · dsimp only
      rcases hval k with e | ⟨i, a, _, _, e⟩
      · rw [e]; trivial
      · rw [e]; exact val_old hi.regsOld a
    · intro fr hfr k
      rcases List.mem_cons.1 hfr with rfl | hfr
      · exact hi.regsOld k
      · exact hi.stkOld fr hfr k
  | @ret fr stk n regs mem next r hc he hr =>
    obtain ⟨hl, hrest⟩ := hi.frames
    have hact := hi.act
    have hcd := fit .direct fr.c _ hl.callee hl.body
    have hci := fit .noCallBr fr.c _ hl.callee hl.body
    have hst : p.Stmt fr.c := .inl hl.call
    have hfun := wf.icf.ret_fun _ _ hr
    have hretval : ∀ x, x = (match (p.operands n)[0]? with | some v => p.val regs v | none => .data) →
        Old next x ∧ (Bad mem x → p.Run (stk.map Frame.c) r (.node fr.c)) := by
      rintro x rfl
      split
      · rename_i v hv
        refine ⟨val_old hi.regsOld v, fun hb => ?_⟩
        rcases val_bad hu.globals hb with h | ⟨j, rfl, hj, hbj⟩
        · rw [fit .ret n he v hv] at h; cases h
        · exact (hact.cov j hj hbj).step (.ret hc he hr ((mem_retFlow (f := p.icf.funOf n) (r := r) hci).2 (.inl ⟨hv, rfl⟩)))
      · exact ⟨trivial, fun hb => absurd hb not_bad_data⟩
    obtain ⟨hvo, hvb⟩ := hretval _ rfl
    refine ⟨⟨Prog.Run.zero_ctr wf hl.call hr hl.zero, fun k hk hb => ?_⟩, frames_upd hrest hfun ?_ fun _ _ _ _ h => .inl h,
      fun k => ?_, fun fr' h' => hi.stkOld fr' (List.mem_cons_of_mem _ h'), hi.memOld⟩
    · dsimp only at hb
      unfold updR at hb
      split at hb
      · rename_i e; subst e; exact hvb hb
      · by_cases hpa : p.isPtr (.node k) = true ∧ .node k ∈ p.args fr.c
        · obtain ⟨i, ha⟩ := List.mem_iff_getElem?.1 hpa.2
          have hlt := (List.getElem?_eq_some_iff.1 ha).1
          have hk' : ∃ k', (p.params (p.icf.funOf n))[i]? = some k' :=
            ⟨_, List.getElem?_eq_getElem (Nat.lt_of_lt_of_le hlt (fit .noVarArg _ _ hl.callee hl.body))⟩
          obtain ⟨k', hk'⟩ := hk'
          have hty := wf.types _ _ i k' _ hl.callee hl.body hk' ha
          have hv : regs k' = fr.regs k := by
            have := hl.formals i k' _ hk' ha
            rw [val_reg hk] at this
            exact this
          have hrun := hact.cov k' (wf.params _ _ (List.mem_of_getElem? hk')).2 (by dsimp only; rw [hv]; exact hb)
          exact hrun.step (.ret hc he hr ((mem_retFlow (f := p.icf.funOf n) (r := r) hci).2
            (.inr ⟨_, i, k', hcd, hk', ha, rfl, hty ▸ hpa.1⟩)))
        · have hrun := (hl.cov k hk hb).resolve_right fun h => hpa ⟨h.2, h.1⟩
          exact hrun.step (.callToRet hl.call hr ((mem_ctrFlow (r := r)).2 ⟨rfl, hpa⟩))
    · intro k hk
      show updR _ _ _ k = _
      unfold updR
      rw [if_neg]
      rintro rfl
      exact (wf.params _ _ hk).1 hst
    · exact updR_old (hi.stkOld fr List.mem_cons_self) hvo k
  | @ext stk n regs mem next f r x mem' next' hc hf hd hr he =>
    have hact := hi.act
    have hst : p.Stmt n := .inl hc
    have hfun := wf.icf.ret_fun _ _ hr
    refine ⟨⟨Prog.Run.zero_ctr wf hc hr hact.zero, fun k hk hb => ?_⟩, frames_upd hi.frames hfun ?_ fun fr hfr k _ h =>
      .inl (he.cell _ (hi.stkOld fr hfr k) h), fun k => ?_, fun fr hfr k => old_mono he.mono (hi.stkOld fr hfr k), he.old hi.memOld⟩
    · dsimp only at hb
      unfold updR at hb
      split at hb
      · exact absurd hb he.result
      · refine (hact.cov k hk (he.cell _ (hi.regsOld k) hb)).step (.callToRet hc hr ((mem_ctrFlow (r := r)).2 ⟨rfl, ?_⟩))
        rintro ⟨h1, h2⟩
        refine he.init (fit .inits n f hf hd) _ h2 h1 ?_
        rw [val_reg hk]; exact hb
    · intro k hk
      show updR _ _ _ k = _
      unfold updR
      rw [if_neg]
      rintro rfl
      exact (wf.params _ _ hk).1 hst
    · show Old _ (updR _ _ _ k)
      unfold updR
      split
      · exact he.resultOld
      · exact old_mono he.mono (hi.regsOld k)

theorem inv_init {s : CState} (hs : p.Init s) : p.Inv s := by
  obtain ⟨stk, n, regs, mem, next⟩ := s
  have h1 : stk = [] := hs.stk
  subst h1
  refine ⟨⟨⟨n, .zero, ⟨_, List.mem_map.2 ⟨n, hs.entry, rfl⟩, .inr rfl⟩, .refl _⟩, fun k _ hb => absurd hb (hs.regs k)⟩, trivial,
    hs.regsOld, fun fr h => (by cases h), hs.memOld⟩

theorem inv_steps (wf : p.WF) (fit : p.Fit) {s t : CState} (hs : p.Init s) (h : p.CSteps s t)
    (hu : ∀ u, p.CSteps s u → p.Unaliased u) : p.Inv t := by
  induction h with
  | refl => exact inv_init hs
  | tail h1 h2 ih => exact inv_step wf fit ih (hu _ h1) h2

end Phasar.Uninit
