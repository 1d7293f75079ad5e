import Verif.Analysis.TaintSim
/-!
# The invariant of executions for the taint analysis (lemmas for C51)
-/
namespace Phasar.Taint
open Phasar Phasar.IDE FlowFn

variable {p : Prog}

/-- A run of the flow functions from a seed. -/
def Prog.Run (p : Prog) (cs : List Nat) (n : Nat) (d : Val) : Prop :=
  ∃ n0 d0, IsSeedFact p.problem n0 d0 ∧ FSteps p.problem ([], n0, d0) (cs, n, d)

theorem Prog.Run.step {cs cs' : List Nat} {n n' : Nat} {d d' : Val} (h : p.Run cs n d)
    (hs : FStep p.problem (cs, n, d) (cs', n', d')) : p.Run cs' n' d' := by
  obtain ⟨n0, d0, h0, h1⟩ := h
  exact ⟨n0, d0, h0, .tail h1 hs⟩

/-- The taint of `k` is accounted for at `n`: by a fact there, by a fact at its only use, or `k` is about to be overwritten. -/
def Prog.Cov (p : Prog) (cs : List Nat) (n k : Nat) : Prop :=
  p.Run cs n (.node k) ∨ (∃ u, p.LastUse u k ∧ p.Run cs u (.node k)) ∨ p.Pending n k

theorem lastUse_operand {n k : Nat} (h : p.LastUse n k) : .node k ∈ p.operands n := by
  unfold Prog.operands
  rcases h.2 with ⟨_, h⟩ | h | h | h | ⟨_, h⟩ | ⟨_, h⟩ <;> rw [h] <;> simp

theorem Prog.Cov.use (wf : p.WF) {cs : List Nat} {n k : Nat} (h : p.Cov cs n k) (hu : .node k ∈ p.operands n) :
    p.Run cs n (.node k) := by
  rcases h with h | ⟨u, hl, h⟩ | h
  · exact h
  · rw [wf.uses n u k hl.1 hu (lastUse_operand hl)]; exact h
  · exact absurd h (wf.defined n k hu)

theorem Prog.Cov.global (fit : p.Fit) {cs : List Nat} {n k : Nat} (h : p.Cov cs n k) (hc : p.isConst k = true) :
    p.Run cs n (.node k) := by
  rcases h with h | ⟨u, hl, h⟩ | h
  · exact h
  · rw [(fit.lastUse u k hl).1] at hc; cases hc
  · rw [h.2.1] at hc; cases hc

theorem pending_next (wf : p.WF) {n n' k : Nat} (h : p.Pending n k) (hk : k ≠ n)
    (hn : n' ∈ p.icf.succs n ∨ n' ∈ p.icf.retSites n) : p.Pending n' k := by
  obtain ⟨h1, h2, h3, h4⟩ := h
  obtain ⟨h5, h6⟩ := wf.order n k n' h1 h3 (h4.resolve_left hk) hn
  exact ⟨h1, h2, h5, h6⟩

/-- The taint of a value stays accounted for over a statement that does not define it or store through it. -/
theorem Prog.Cov.normal (wf : p.WF) {cs : List Nat} {n n' k : Nat} (hc : p.icf.isCall n = false) (hn : n' ∈ p.icf.succs n)
    (hk : k ≠ n) (hst : ∀ v ptr, p.inst n = .store v ptr → ptr ≠ .node k) (h : p.Cov cs n k) : p.Cov cs n' k := by
  rcases h with h | h | h
  · by_cases hl : p.LastUse n k
    · exact .inr (.inl ⟨n, hl, h⟩)
    · exact .inl (h.step (.normal hc hn (normal_keep (n' := n') hk hst hl)))
  · exact .inr (.inl h)
  · exact .inr (.inr (pending_next wf h hk (.inl hn)))

/-! ## The invariant -/

/-- Addresses the callee of the suspended call can reach: globals, arguments, and what is allocated after the call. -/
def Prog.Acc (p : Prog) (fr : Frame) (ℓ : Loc) : Prop :=
  (∃ g, ℓ = .glob g) ∨ (∃ a ∈ p.args fr.c, p.val fr.regs a = .ptr ℓ) ∨ ∃ i, ℓ = .obj i ∧ fr.next ≤ i

/-- Addresses an activation can reach. -/
def AccBy (regs : Nat → RVal) (next : Nat) (ℓ : Loc) : Prop :=
  (∃ g, ℓ = .glob g) ∨ (∃ k, regs k = .ptr ℓ) ∨ ∃ i, ℓ = .obj i ∧ next ≤ i

/-- The alias information is sound for one activation. -/
def Prog.AliasAt (p : Prog) (n : Nat) (regs : Nat → RVal) : Prop :=
  ∀ k1 k2 ℓ, p.val regs (.node k1) = .ptr ℓ → p.val regs (.node k2) = .ptr ℓ → k1 ≠ k2 → ¬ p.Pending n k2 →
    .node k2 ∈ p.aliases (.node k1)

/-- What holds of every activation at its current statement or call. -/
structure Prog.ActOk (p : Prog) (cs : List Nat) (n : Nat) (regs : Nat → RVal) (mem : Loc → Bool) (next : Nat) : Prop where
  zero : p.Run cs n .zero
  cov : ∀ k, p.Tainted regs mem (.node k) → p.Cov cs n k
  loc : ∀ k ℓ, regs k = .ptr ℓ → p.InFun n k
  old : ∀ k i, regs k = .ptr (.obj i) → i < next
  glob : ∀ k g, regs k = .ptr (.glob g) → p.isConst g = true
  alias : p.AliasAt n regs

/-- Relation of an activation to the call that started it. -/
structure Prog.Link (p : Prog) (fr : Frame) (n : Nat) (regs : Nat → RVal) (mem : Loc → Bool) (next : Nat) : Prop where
  call : p.icf.isCall fr.c = true
  callee : p.icf.funOf n ∈ p.icf.callees fr.c
  int : ¬ p.External fr.c (p.icf.funOf n)
  formals : ∀ (i k : Nat) (a : Val) (ℓ : Loc), (p.params (p.icf.funOf n))[i]? = some k → (p.args fr.c)[i]? = some a →
    p.val fr.regs a = .ptr ℓ → regs k = .ptr ℓ
  typed : ∀ a ∈ p.args fr.c, p.ptrTy a = false → ∃ t, p.val fr.regs a = .sc t
  addr : ∀ a ∈ p.args fr.c, p.ptrTy a = true → p.val fr.regs a ≠ .sc true
  reach : ∀ k ℓ, regs k = .ptr ℓ → p.Acc fr ℓ
  same : ∀ ℓ, ¬ p.Acc fr ℓ → mem ℓ = true → fr.mem ℓ = true
  mono : fr.next ≤ next

/-- The suspended activations. -/
def Prog.Frames (p : Prog) (mem : Loc → Bool) : List Frame → Nat → (Nat → RVal) → Nat → Prop
  | [], _, _, _ => True
  | fr :: rest, n, regs, next => p.Link fr n regs mem next ∧ p.ActOk (rest.map Frame.c) fr.c fr.regs fr.mem fr.next ∧
      Prog.Frames p mem rest fr.c fr.regs fr.next

/-- The invariant of executions. -/
structure Prog.Inv (p : Prog) (s : CState) : Prop where
  act : p.ActOk (s.stk.map Frame.c) s.n s.regs s.mem s.next
  frames : p.Frames s.mem s.stk s.n s.regs s.next
  const : ∀ g, s.mem (.glob g) = true → p.constData g = false

theorem acc_of_accBy {fr : Frame} {n : Nat} {regs : Nat → RVal} {mem : Loc → Bool} {next : Nat} {ℓ : Loc}
    (h : p.Link fr n regs mem next) (ha : AccBy regs next ℓ) : p.Acc fr ℓ := by
  rcases ha with h1 | ⟨k, h1⟩ | ⟨i, h1, h2⟩
  · exact .inl h1
  · exact h.reach k ℓ h1
  · exact .inr (.inr ⟨i, h1, Nat.le_trans h.mono h2⟩)

theorem val_ptr {regs : Nat → RVal} {v : Val} {ℓ : Loc} (h : p.val regs v = .ptr ℓ) :
    (∃ g, v = .node g ∧ p.isConst g = true ∧ ℓ = .glob g) ∨ ∃ k, v = .node k ∧ p.isConst k = false ∧ regs k = .ptr ℓ := by
  cases v with
  | zero => cases h
  | lit c => cases h
  | node k =>
    unfold Prog.val at h
    cases hc : p.isConst k
    · simp only [hc, Bool.false_eq_true, if_false] at h
      exact .inr ⟨k, rfl, hc, h⟩
    · simp only [hc, if_true] at h
      cases h
      exact .inl ⟨k, rfl, hc, rfl⟩

theorem accBy_of_acc {fr : Frame} {ℓ : Loc} (h : p.Acc fr ℓ) : AccBy fr.regs fr.next ℓ := by
  rcases h with h | ⟨a, _, h⟩ | h
  · exact .inl h
  · rcases val_ptr h with ⟨g, _, _, h⟩ | ⟨k, _, _, h⟩
    · exact .inl ⟨g, h⟩
    · exact .inr (.inl ⟨k, h⟩)
  · exact .inr (.inr h)

theorem frames_mem {mem mem' : Loc → Bool} {stk : List Frame} {n : Nat} {regs : Nat → RVal} {next : Nat}
    (h : p.Frames mem stk n regs next) (hm : ∀ ℓ, mem' ℓ = true → mem ℓ = true ∨ AccBy regs next ℓ) : p.Frames mem' stk n regs next := by
  induction stk generalizing n regs next with
  | nil => trivial
  | cons fr rest ih =>
    obtain ⟨hl, ha, hf⟩ := h
    refine ⟨{ hl with same := fun ℓ hℓ h' => ?_ }, ha,
      ih hf fun ℓ hℓ => (hm ℓ hℓ).imp id fun h => accBy_of_acc (acc_of_accBy hl h)⟩
    rcases hm ℓ h' with h1 | h1
    · exact hl.same ℓ hℓ h1
    · exact absurd (acc_of_accBy hl h1) hℓ

theorem frames_upd {mem : Loc → Bool} {stk : List Frame} {n n' : Nat} {regs regs' : Nat → RVal} {next next' : Nat}
    (h : p.Frames mem stk n regs next) (hf : p.icf.funOf n' = p.icf.funOf n)
    (hp : ∀ k ∈ p.params (p.icf.funOf n), ∀ ℓ, regs k = .ptr ℓ → regs' k = .ptr ℓ)
    (hr : ∀ k ℓ, regs' k = .ptr ℓ → AccBy regs next ℓ) (hn : next ≤ next') : p.Frames mem stk n' regs' next' := by
  cases stk with
  | nil => trivial
  | cons fr rest =>
    obtain ⟨hl, ha, hrest⟩ := h
    exact ⟨{ call := hl.call
             callee := hf ▸ hl.callee
             int := hf ▸ hl.int
             formals := fun i k a ℓ hk ha' hv => by
               rw [hf] at hk
               exact hp k (List.mem_of_getElem? hk) ℓ (hl.formals i k a ℓ hk ha' hv)
             typed := hl.typed
             addr := hl.addr
             reach := fun k ℓ hk => acc_of_accBy hl (hr k ℓ hk)
             same := hl.same
             mono := Nat.le_trans hl.mono hn }, ha, hrest⟩

/-! ## Values -/

theorem tainted_node {regs : Nat → RVal} {mem : Loc → Bool} {v : Val} (h : p.Tainted regs mem v) : ∃ k, v = .node k := by
  cases v with
  | zero => cases h
  | lit c => cases h
  | node k => exact ⟨k, rfl⟩

theorem val_local {regs : Nat → RVal} {k : Nat} (h : p.isConst k = false) : p.val regs (.node k) = regs k := by
  simp [Prog.val, h]

theorem val_global {regs : Nat → RVal} {k : Nat} (h : p.isConst k = true) : p.val regs (.node k) = .ptr (.glob k) := by
  simp [Prog.val, h]

theorem val_upd_ne {regs : Nat → RVal} {n k : Nat} {x : RVal} (h : k ≠ n) :
    p.val (updR regs n x) (.node k) = p.val regs (.node k) := by
  simp [Prog.val, updR, h]

theorem val_upd_eq {regs : Nat → RVal} {n : Nat} {x : RVal} (h : p.isConst n = false) :
    p.val (updR regs n x) (.node n) = x := by
  simp [Prog.val, updR, h]

theorem hot_cases {mem : Loc → Bool} {x : RVal} (h : Hot mem x) : x = .sc true ∨ ∃ ℓ, x = .ptr ℓ ∧ mem ℓ = true := by
  cases x with
  | sc t => left; rw [show t = true from h]
  | ptr ℓ => exact .inr ⟨ℓ, rfl, h⟩

theorem inFun_congr {n n' k : Nat} (h : p.icf.funOf n' = p.icf.funOf n) (hk : p.InFun n k) : p.InFun n' k := by
  unfold Prog.InFun at hk ⊢
  rw [h]; exact hk

/-- A register whose address is that of the fact `v` is among the aliases generated with it. -/
theorem populate_same (wf : p.WF) {cs : List Nat} {n : Nat} {regs : Nat → RVal} {mem : Loc → Bool} {next : Nat}
    (h : p.ActOk cs n regs mem next) {facts : List Val} {v : Val} {k : Nat} {ℓ : Loc} (hv : v ∈ facts)
    (h1 : p.val regs v = .ptr ℓ) (h2 : p.val regs (.node k) = .ptr ℓ) (hp : ¬ p.Pending n k)
    (hc : p.isConst k = true → p.constData k = false) : .node k ∈ p.populate facts n := by
  obtain ⟨j, rfl⟩ : ∃ j, v = .node j := by
    rcases val_ptr h1 with ⟨g, e, _⟩ | ⟨g, e, _⟩ <;> exact ⟨g, e⟩
  by_cases hj : j = k
  · subst hj; exact mem_populate.2 (.inl hv)
  · refine populate_alias wf hv (h.alias j k ℓ h1 h2 hj hp) ?_ hp ?_
    · cases hk : p.isConst k
      · rw [val_local hk] at h2
        exact h.loc k ℓ h2
      · exact .inl hk
    · cases hk : p.isConst k
      · cases hd : p.constData k
        · rfl
        · rw [wf.constData k hd] at hk; cases hk
      · exact hc hk

end Phasar.Taint
