/-
C87: the general statistics of a module (GeneralStatisticsAnalysis.cpp).
-/
import Verif.Util.Stats

namespace Phasar.Stats

/-! ## Specification -/

/-- Specification: the basic blocks of the module. -/
def C87.blocks (m : Module) : List Block := m.funcs.flatMap (·.blocks)

/-- Specification: the instructions of the module with their basic blocks. -/
def C87.insts (m : Module) : List (Block × Inst) := (C87.blocks m).flatMap fun b => b.insts.map fun i => (b, i)

/-- Specification: how many instructions of the module have the property. -/
def C87.count (m : Module) (P : Kind → Bool) : Nat := (C87.insts m).countP fun p => P p.2.kind

/-- Specification: the names of functions that allocate memory. -/
def C87.heapNames : List String := ["_Znwm", "_Znam", "_ZnwPv", "malloc", "calloc", "realloc"]

/-- Specification: an instruction that allocates memory, on the stack or on the heap. -/
def C87.allocates : Kind → Bool
  | .alloca _ => true
  | .call (.fn n) _ _ _ => C87.heapNames.contains n
  | _ => false

/-- Specification: the type is allocated by the instruction: on the stack, or on the heap, where the result is cast to a pointer to a
struct and the cast is an operand of a call of a function whose first parameter has that pointer type. -/
def C87.Allocates (t : Ty) (k : Kind) : Prop :=
  k = .alloca t ∨ ∃ n mem dbg users, k = .call (.fn n) mem dbg users ∧ n ∈ C87.heapNames ∧
    ∃ id us ps, t = .struct id ∧ CallUser.bitcast (.ptr t) us ∈ users ∧ CastUser.call (some (.ptr t :: ps)) ∈ us

/-- Specification: heap memory is cast to a pointer to a struct and the cast is an operand of a call of a function without parameters
(whose arguments are all variadic). -/
def C87.Bad (k : Kind) : Prop :=
  ∃ n mem dbg users, k = .call (.fn n) mem dbg users ∧ n ∈ C87.heapNames ∧
    ∃ id us, CallUser.bitcast (.ptr (.struct id)) us ∈ users ∧ CastUser.call (some []) ∈ us

/-! ## The loops as folds -/

theorem C87.foldl_proj {σ α β : Type} (proj : σ → β) (step : σ → α → σ) (g : α → β → β)
    (h : ∀ s x, proj (step s x) = g x (proj s)) : ∀ (l : List α) (s : σ),
    proj (l.foldl step s) = l.foldl (fun a x => g x a) (proj s) := by
  intro l
  induction l with
  | nil => intro s; rfl
  | cons x l ih => intro s; rw [List.foldl_cons, List.foldl_cons, ih, h]

theorem C87.foldl_same {σ α β : Type} (proj : σ → β) (step : σ → α → σ) (h : ∀ s x, proj (step s x) = proj s) (l : List α) (s : σ) :
    proj (l.foldl step s) = proj s := by
  rw [C87.foldl_proj proj step (fun _ a => a) h]
  induction l generalizing s with
  | nil => rfl
  | cons x l ih => exact ih s

theorem C87.loops_inst {β : Type} (proj : Stats → β) (g : Block → Inst → β → β)
    (hf : ∀ s f, proj (funcHead s f) = proj s) (hb : ∀ s b, proj (blockHead s b) = proj s)
    (hg : ∀ s x, proj (globalStep s x) = proj s)
    (hi : ∀ (b : Block) s i, proj (instStep b.id s i) = g b i (proj s)) (s : Stats) (m : Module) :
    proj (loops s m) = (C87.insts m).foldl (fun a p => g p.1 p.2 a) (proj s) := by
  have h1 : ∀ s b, proj (blockStep s b) = b.insts.foldl (fun a i => g b i a) (proj s) := by
    intro s b
    rw [blockStep, C87.foldl_proj proj _ (g b) (hi b), hb]
  have h2 : ∀ s f, proj (funcStep s f) = f.blocks.foldl (fun a b => b.insts.foldl (fun a i => g b i a) a) (proj s) := by
    intro s f
    rw [funcStep, C87.foldl_proj proj _ (fun b a => b.insts.foldl (fun a i => g b i a) a) h1, hf]
  rw [loops, C87.foldl_same proj _ hg,
    C87.foldl_proj proj _ (fun f a => f.blocks.foldl (fun a b => b.insts.foldl (fun a i => g b i a) a) a) h2]
  unfold C87.insts C87.blocks
  simp only [List.foldl_flatMap, List.foldl_map]

theorem C87.loops_block {β : Type} (proj : Stats → β) (g : Block → β → β)
    (hf : ∀ s f, proj (funcHead s f) = proj s) (hb : ∀ s b, proj (blockHead s b) = g b (proj s))
    (hg : ∀ s x, proj (globalStep s x) = proj s)
    (hi : ∀ (b : Nat) s i, proj (instStep b s i) = proj s) (s : Stats) (m : Module) :
    proj (loops s m) = (C87.blocks m).foldl (fun a b => g b a) (proj s) := by
  have h1 : ∀ s b, proj (blockStep s b) = g b (proj s) := by
    intro s b
    rw [blockStep, C87.foldl_same proj _ (hi b.id), hb]
  have h2 : ∀ s f, proj (funcStep s f) = f.blocks.foldl (fun a b => g b a) (proj s) := by
    intro s f
    rw [funcStep, C87.foldl_proj proj _ g h1, hf]
  rw [loops, C87.foldl_same proj _ hg, C87.foldl_proj proj _ (fun f a => f.blocks.foldl (fun a b => g b a) a) h2]
  unfold C87.blocks
  simp only [List.foldl_flatMap]

theorem C87.loops_func {β : Type} (proj : Stats → β) (g : Func → β → β)
    (hf : ∀ s f, proj (funcHead s f) = g f (proj s)) (hb : ∀ s b, proj (blockHead s b) = proj s)
    (hg : ∀ s x, proj (globalStep s x) = proj s)
    (hi : ∀ (b : Nat) s i, proj (instStep b s i) = proj s) (s : Stats) (m : Module) :
    proj (loops s m) = m.funcs.foldl (fun a f => g f a) (proj s) := by
  have h1 : ∀ s b, proj (blockStep s b) = proj s := by
    intro s b
    rw [blockStep, C87.foldl_same proj _ (hi b.id), hb]
  have h2 : ∀ s f, proj (funcStep s f) = g f (proj s) := by
    intro s f
    rw [funcStep, C87.foldl_same proj _ h1, hf]
  rw [loops, C87.foldl_same proj _ hg, C87.foldl_proj proj _ g h2]

theorem C87.loops_global {β : Type} (proj : Stats → β) (g : Global → β → β)
    (hf : ∀ s f, proj (funcHead s f) = proj s) (hb : ∀ s b, proj (blockHead s b) = proj s)
    (hg : ∀ s x, proj (globalStep s x) = g x (proj s))
    (hi : ∀ (b : Nat) s i, proj (instStep b s i) = proj s) (s : Stats) (m : Module) :
    proj (loops s m) = m.globals.foldl (fun a f => g f a) (proj s) := by
  have h1 : ∀ s b, proj (blockStep s b) = proj s := by
    intro s b
    rw [blockStep, C87.foldl_same proj _ (hi b.id), hb]
  have h2 : ∀ s f, proj (funcStep s f) = proj s := by
    intro s f
    rw [funcStep, C87.foldl_same proj _ h1, hf]
  rw [loops, C87.foldl_proj proj _ g hg, C87.foldl_same proj _ h2]

theorem C87.foldl_add {α : Type} (w : α → Nat) (l : List α) (n : Nat) : l.foldl (fun a x => a + w x) n = n + (l.map w).sum := by
  induction l generalizing n with
  | nil => rfl
  | cons x l ih => rw [List.foldl_cons, ih, List.map_cons, List.sum_cons]; omega

theorem C87.foldl_inc {α : Type} (P : α → Bool) (l : List α) (n : Nat) : l.foldl (fun a x => a + inc (P x)) n = n + l.countP P := by
  induction l generalizing n with
  | nil => rfl
  | cons x l ih => rw [List.foldl_cons, ih, List.countP_cons, inc]; split <;> omega

theorem C87.foldl_one {α : Type} (l : List α) (n : Nat) : l.foldl (fun a _ => a + 1) n = n + l.length := by
  induction l generalizing n with
  | nil => rfl
  | cons x l ih => rw [List.foldl_cons, ih, List.length_cons]; omega

/-- Counters of instructions. -/
theorem C87.counter (proj : Stats → Nat) (P : Kind → Bool)
    (hf : ∀ s f, proj (funcHead s f) = proj s) (hb : ∀ s b, proj (blockHead s b) = proj s)
    (hg : ∀ s x, proj (globalStep s x) = proj s)
    (hi : ∀ (b : Nat) s i, proj (instStep b s i) = proj s + inc (P i.kind)) (s : Stats) (m : Module) :
    proj (loops s m) = proj s + C87.count m P := by
  rw [C87.loops_inst proj (fun _ i a => a + inc (P i.kind)) hf hb hg (fun b => hi b.id), C87.foldl_inc (fun p : Block × Inst => P p.2.kind)]
  rfl

macro "c87_inst" : tactic => `(tactic|
  (intro b s i
   unfold instStep
   cases hk : i.kind with
   | call called mem dbg users =>
     cases called with
     | fn n => simp only [kindStep]; split <;> simp [inc]
     | _ => simp [kindStep, inc]
   | _ => simp [kindStep, inc]))

theorem C87.branches (s : Stats) (m : Module) : (loops s m).branches = s.branches + C87.count m (· matches .branch) :=
  C87.counter (·.branches) _ (fun _ _ => rfl) (fun _ _ => rfl) (fun _ _ => rfl) (by c87_inst) s m

theorem C87.phiNodes (s : Stats) (m : Module) : (loops s m).phiNodes = s.phiNodes + C87.count m (· matches .phi) :=
  C87.counter (·.phiNodes) _ (fun _ _ => rfl) (fun _ _ => rfl) (fun _ _ => rfl) (by c87_inst) s m

theorem C87.switches (s : Stats) (m : Module) : (loops s m).switches = s.switches + C87.count m (· matches .switch) :=
  C87.counter (·.switches) _ (fun _ _ => rfl) (fun _ _ => rfl) (fun _ _ => rfl) (by c87_inst) s m

theorem C87.geps (s : Stats) (m : Module) : (loops s m).getElementPtrs = s.getElementPtrs + C87.count m (· matches .gep) :=
  C87.counter (·.getElementPtrs) _ (fun _ _ => rfl) (fun _ _ => rfl) (fun _ _ => rfl) (by c87_inst) s m

theorem C87.stores (s : Stats) (m : Module) : (loops s m).storeInstructions = s.storeInstructions + C87.count m (· matches .store) :=
  C87.counter (·.storeInstructions) _ (fun _ _ => rfl) (fun _ _ => rfl) (fun _ _ => rfl) (by c87_inst) s m

theorem C87.loads (s : Stats) (m : Module) : (loops s m).loadInstructions = s.loadInstructions + C87.count m (· matches .load) :=
  C87.counter (·.loadInstructions) _ (fun _ _ => rfl) (fun _ _ => rfl) (fun _ _ => rfl) (by c87_inst) s m

theorem C87.landingPads (s : Stats) (m : Module) : (loops s m).landingPads = s.landingPads + C87.count m (· matches .landingPad) :=
  C87.counter (·.landingPads) _ (fun _ _ => rfl) (fun _ _ => rfl) (fun _ _ => rfl) (by c87_inst) s m

theorem C87.callSites (s : Stats) (m : Module) : (loops s m).callSites = s.callSites + C87.count m (· matches .call ..) :=
  C87.counter (·.callSites) _ (fun _ _ => rfl) (fun _ _ => rfl) (fun _ _ => rfl) (by c87_inst) s m

theorem C87.mems (s : Stats) (m : Module) : (loops s m).memIntrinsics = s.memIntrinsics + C87.count m (· matches .call _ true _ _) :=
  C87.counter (·.memIntrinsics) _ (fun _ _ => rfl) (fun _ _ => rfl) (fun _ _ => rfl) (by
    intro b s i
    unfold instStep
    cases hk : i.kind with
    | call called mem dbg users =>
      cases called with
      | fn n => cases mem <;> simp only [kindStep] <;> split <;> simp [inc]
      | _ => cases mem <;> simp [kindStep, inc]
    | _ => simp [kindStep, inc]) s m

theorem C87.dbgs (s : Stats) (m : Module) : (loops s m).debugIntrinsics = s.debugIntrinsics + C87.count m (· matches .call _ _ true _) :=
  C87.counter (·.debugIntrinsics) _ (fun _ _ => rfl) (fun _ _ => rfl) (fun _ _ => rfl) (by
    intro b s i
    unfold instStep
    cases hk : i.kind with
    | call called mem dbg users =>
      cases called with
      | fn n => cases dbg <;> simp only [kindStep] <;> split <;> simp [inc]
      | _ => cases dbg <;> simp [kindStep, inc]
    | _ => simp [kindStep, inc]) s m

theorem C87.asms (s : Stats) (m : Module) : (loops s m).numInlineAsm = s.numInlineAsm + C87.count m (· matches .call .inlineAsm _ _ _) :=
  C87.counter (·.numInlineAsm) _ (fun _ _ => rfl) (fun _ _ => rfl) (fun _ _ => rfl) (by c87_inst) s m

theorem C87.indCalls (s : Stats) (m : Module) : (loops s m).indCalls = s.indCalls + C87.count m (· matches .call .other _ _ _) :=
  C87.counter (·.indCalls) _ (fun _ _ => rfl) (fun _ _ => rfl) (fun _ _ => rfl) (by c87_inst) s m

theorem C87.heap_eq (n : String) : isHeapAllocating n = C87.heapNames.contains n := by
  rw [Bool.eq_iff_iff]
  simp [isHeapAllocating, C87.heapNames, or_assoc]

theorem C87.allocs (s : Stats) (m : Module) : (loops s m).allocationSites = s.allocationSites + C87.count m C87.allocates :=
  C87.counter (·.allocationSites) _ (fun _ _ => rfl) (fun _ _ => rfl) (fun _ _ => rfl) (by
    intro b s i
    unfold instStep
    cases hk : i.kind with
    | call called mem dbg users =>
      cases called with
      | fn n => simp only [kindStep, C87.heap_eq, C87.allocates]; split <;> simp_all [inc]
      | _ => simp [kindStep, inc, C87.allocates]
    | _ => simp [kindStep, inc, C87.allocates]) s m

macro "c87_other" : tactic => `(tactic|
  (intro b s i
   unfold instStep
   cases hk : i.kind with
   | call called mem dbg users =>
     cases called with
     | fn n => simp only [kindStep]; split <;> rfl
     | _ => rfl
   | _ => rfl))

theorem C87.instructions (s : Stats) (m : Module) : (loops s m).instructions = s.instructions + (C87.insts m).length := by
  rw [C87.loops_inst (·.instructions) (fun _ _ a => a + 1) (fun _ _ => rfl) (fun _ _ => rfl) (fun _ _ => rfl) (by c87_other), C87.foldl_one]

theorem C87.operands (s : Stats) (m : Module) :
    (loops s m).totalNumOperands = s.totalNumOperands + ((C87.insts m).map fun p => p.2.numOps).sum := by
  rw [C87.loops_inst (·.totalNumOperands) (fun _ i a => a + i.numOps) (fun _ _ => rfl) (fun _ _ => rfl) (fun _ _ => rfl) (by c87_other),
    C87.foldl_add]

theorem C87.uses (s : Stats) (m : Module) :
    (loops s m).totalNumUses = s.totalNumUses + ((C87.insts m).map fun p => p.2.uses.length).sum := by
  rw [C87.loops_inst (·.totalNumUses) (fun _ i a => a + i.uses.length) (fun _ _ => rfl) (fun _ _ => rfl) (fun _ _ => rfl) (by c87_other),
    C87.foldl_add]

theorem C87.multiple (s : Stats) (m : Module) :
    (loops s m).numInstWithMultipleUses = s.numInstWithMultipleUses + (C87.insts m).countP fun p => decide (2 ≤ p.2.uses.length) := by
  rw [C87.loops_inst (·.numInstWithMultipleUses) (fun _ i a => a + inc (decide (i.uses.length > 1))) (fun _ _ => rfl) (fun _ _ => rfl)
    (fun _ _ => rfl) (by c87_other), C87.foldl_inc (fun p : Block × Inst => decide (p.2.uses.length > 1))]
  rfl

theorem C87.nonVoid (s : Stats) (m : Module) :
    (loops s m).nonVoidInsts = s.nonVoidInsts + (C87.insts m).countP fun p => !p.2.isVoid := by
  rw [C87.loops_inst (·.nonVoidInsts) (fun _ i a => a + inc (!i.isVoid)) (fun _ _ => rfl) (fun _ _ => rfl)
    (fun _ _ => rfl) (by c87_other), C87.foldl_inc (fun p : Block × Inst => !p.2.isVoid)]

theorem C87.outside (s : Stats) (m : Module) :
    (loops s m).numInstsUsedOutsideBB = s.numInstsUsedOutsideBB + (C87.insts m).countP fun p => p.2.uses.any (· != p.1.id) := by
  rw [C87.loops_inst (·.numInstsUsedOutsideBB) (fun b i a => a + inc (i.uses.any (· != b.id))) (fun _ _ => rfl) (fun _ _ => rfl)
    (fun _ _ => rfl) (fun b => by revert b; intro b; generalize b.id = b; revert b; c87_other),
    C87.foldl_inc (fun p : Block × Inst => p.2.uses.any (· != p.1.id))]

theorem C87.maxOps (s : Stats) (m : Module) :
    (loops s m).maxNumOperands = ((C87.insts m).map fun p => p.2.numOps).foldl bump s.maxNumOperands := by
  rw [C87.loops_inst (·.maxNumOperands) (fun _ i a => bump a i.numOps) (fun _ _ => rfl) (fun _ _ => rfl) (fun _ _ => rfl) (by c87_other),
    List.foldl_map]

theorem C87.maxUses (s : Stats) (m : Module) :
    (loops s m).maxNumUses = ((C87.insts m).map fun p => p.2.uses.length).foldl bump s.maxNumUses := by
  rw [C87.loops_inst (·.maxNumUses) (fun _ i a => bump a i.uses.length) (fun _ _ => rfl) (fun _ _ => rfl) (fun _ _ => rfl) (by c87_other),
    List.foldl_map]

theorem C87.numBlocks (s : Stats) (m : Module) : (loops s m).basicBlocks = s.basicBlocks + (C87.blocks m).length := by
  rw [C87.loops_block (·.basicBlocks) (fun _ a => a + 1) (fun _ _ => rfl) (fun _ _ => rfl) (fun _ _ => rfl) (by c87_other), C87.foldl_one]

theorem C87.preds (s : Stats) (m : Module) :
    (loops s m).totalNumPredecessorBBs = s.totalNumPredecessorBBs + ((C87.blocks m).map (·.preds.length)).sum := by
  rw [C87.loops_block (·.totalNumPredecessorBBs) (fun b a => a + b.preds.length) (fun _ _ => rfl) (fun _ _ => rfl) (fun _ _ => rfl)
    (by c87_other), C87.foldl_add]

theorem C87.succs (s : Stats) (m : Module) :
    (loops s m).totalNumSuccessorBBs = s.totalNumSuccessorBBs + ((C87.blocks m).map (·.succs.length)).sum := by
  rw [C87.loops_block (·.totalNumSuccessorBBs) (fun b a => a + b.succs.length) (fun _ _ => rfl) (fun _ _ => rfl) (fun _ _ => rfl)
    (by c87_other), C87.foldl_add]

theorem C87.maxPreds (s : Stats) (m : Module) :
    (loops s m).maxNumPredecessorBBs = ((C87.blocks m).map (·.preds.length)).foldl bump s.maxNumPredecessorBBs := by
  rw [C87.loops_block (·.maxNumPredecessorBBs) (fun b a => bump a b.preds.length) (fun _ _ => rfl) (fun _ _ => rfl) (fun _ _ => rfl)
    (by c87_other), List.foldl_map]

theorem C87.maxSuccs (s : Stats) (m : Module) :
    (loops s m).maxNumSuccessorBBs = ((C87.blocks m).map (·.succs.length)).foldl bump s.maxNumSuccessorBBs := by
  rw [C87.loops_block (·.maxNumSuccessorBBs) (fun b a => bump a b.succs.length) (fun _ _ => rfl) (fun _ _ => rfl) (fun _ _ => rfl)
    (by c87_other), List.foldl_map]

theorem C87.numFuncs (s : Stats) (m : Module) : (loops s m).functions = s.functions + m.funcs.length := by
  rw [C87.loops_func (·.functions) (fun _ a => a + 1) (fun _ _ => rfl) (fun _ _ => rfl) (fun _ _ => rfl) (by c87_other), C87.foldl_one]

theorem C87.extFuncs (s : Stats) (m : Module) : (loops s m).externalFunctions = s.externalFunctions + m.funcs.countP (·.external) := by
  rw [C87.loops_func (·.externalFunctions) (fun f a => a + inc f.external) (fun _ _ => rfl) (fun _ _ => rfl) (fun _ _ => rfl)
    (by c87_other), C87.foldl_inc]

theorem C87.funcDefs (s : Stats) (m : Module) :
    (loops s m).functionDefinitions = s.functionDefinitions + m.funcs.countP (!·.isDecl) := by
  rw [C87.loops_func (·.functionDefinitions) (fun f a => a + inc (!f.isDecl)) (fun _ _ => rfl) (fun _ _ => rfl) (fun _ _ => rfl)
    (by c87_other), C87.foldl_inc (fun f : Func => !f.isDecl)]

theorem C87.taken (s : Stats) (m : Module) :
    (loops s m).addressTakenFunctions = s.addressTakenFunctions + m.funcs.countP isAddressTaken := by
  rw [C87.loops_func (·.addressTakenFunctions) (fun f a => a + inc (isAddressTaken f)) (fun _ _ => rfl) (fun _ _ => rfl) (fun _ _ => rfl)
    (by c87_other), C87.foldl_inc]

theorem C87.numGlobals (s : Stats) (m : Module) : (loops s m).globals = s.globals + m.globals.length := by
  rw [C87.loops_global (·.globals) (fun _ a => a + 1) (fun _ _ => rfl) (fun _ _ => rfl) (fun _ _ => rfl) (by c87_other), C87.foldl_one]

theorem C87.consts (s : Stats) (m : Module) : (loops s m).globalConsts = s.globalConsts + m.globals.countP (·.isConst) := by
  rw [C87.loops_global (·.globalConsts) (fun g a => a + inc g.isConst) (fun _ _ => rfl) (fun _ _ => rfl) (fun _ _ => rfl)
    (by c87_other), C87.foldl_inc]

theorem C87.globalDefs (s : Stats) (m : Module) :
    (loops s m).globalsDefinitions = s.globalsDefinitions + m.globals.countP (!·.isDecl) := by
  rw [C87.loops_global (·.globalsDefinitions) (fun g a => a + inc (!g.isDecl)) (fun _ _ => rfl) (fun _ _ => rfl) (fun _ _ => rfl)
    (by c87_other), C87.foldl_inc (fun g : Global => !g.isDecl)]

theorem C87.extGlobals (s : Stats) (m : Module) : (loops s m).externalGlobals = s.externalGlobals + m.globals.countP (·.external) := by
  rw [C87.loops_global (·.externalGlobals) (fun g a => a + inc g.external) (fun _ _ => rfl) (fun _ _ => rfl) (fun _ _ => rfl)
    (by c87_other), C87.foldl_inc]

/-! ## Sets -/

theorem C87.mem_insert {α : Type} [DecidableEq α] (x y : α) (l : List α) : y ∈ insert x l ↔ y = x ∨ y ∈ l := by
  unfold insert
  split
  · rename_i h
    constructor
    · exact .inr
    · rintro (rfl | h') <;> assumption
  · exact List.mem_cons

theorem C87.nodup_insert {α : Type} [DecidableEq α] (x : α) {l : List α} (h : l.Nodup) : (insert x l).Nodup := by
  unfold insert
  split
  · exact h
  · exact List.nodup_cons.2 ⟨‹_›, h⟩

/-- Sets of instructions. -/
theorem C87.set (P : Kind → Bool) : ∀ (l : List (Block × Inst)) (a : List Nat), a.Nodup →
    let r := l.foldl (fun a p => if P p.2.kind then insert p.2.id a else a) a
    r.Nodup ∧ (∀ x, x ∈ r ↔ x ∈ a ∨ ∃ p ∈ l, P p.2.kind = true ∧ p.2.id = x) ∧
    ((l.map (·.2.id)).Nodup → (∀ p ∈ l, p.2.id ∉ a) → r.length = a.length + l.countP fun p => P p.2.kind) := by
  intro l
  induction l with
  | nil => intro a h; simp [h]
  | cons p l ih =>
    intro a h
    simp only [List.foldl_cons]
    have key : ∀ a' : List Nat, a' = (if P p.2.kind then insert p.2.id a else a) → a'.Nodup ∧
        (∀ x, x ∈ a' ↔ x ∈ a ∨ (P p.2.kind = true ∧ p.2.id = x)) ∧ (p.2.id ∉ a → a'.length = a.length + inc (P p.2.kind)) := by
      intro a' e
      subst e
      cases P p.2.kind with
      | true =>
        simp only [if_true]
        refine ⟨C87.nodup_insert _ h, fun x => ?_, fun hn => ?_⟩
        · rw [C87.mem_insert]; simp only [true_and]; rw [eq_comm (a := x), or_comm]
        · rw [insert, if_neg hn]; rfl
      | false => exact ⟨h, fun x => by simp, fun _ => rfl⟩
    obtain ⟨k1, k2, k3⟩ := key _ rfl
    obtain ⟨h1, h2, h3⟩ := ih _ k1
    refine ⟨h1, fun x => ?_, fun hn ha => ?_⟩
    · rw [h2, k2]
      simp only [List.mem_cons, exists_eq_or_imp, or_assoc]
    · rw [List.map_cons, List.nodup_cons] at hn
      rw [h3 hn.2 ?_, k3 (ha p (List.mem_cons_self ..)), List.countP_cons, inc]
      · split <;> omega
      · intro q hq hq'
        rcases (k2 _).1 hq' with h' | ⟨_, h'⟩
        · exact ha q (List.mem_cons_of_mem _ hq) h'
        · exact hn.1 (h' ▸ List.mem_map_of_mem hq)

theorem C87.allocaSet (s : Stats) (m : Module) : (loops s m).allocaInstructions =
    (C87.insts m).foldl (fun a p => if C87.allocates p.2.kind then insert p.2.id a else a) s.allocaInstructions :=
  C87.loops_inst (·.allocaInstructions) (fun _ i a => if C87.allocates i.kind then insert i.id a else a) (fun _ _ => rfl) (fun _ _ => rfl)
    (fun _ _ => rfl) (by
    intro b s i
    unfold instStep
    cases hk : i.kind with
    | call called mem dbg users =>
      cases called with
      | fn n => simp only [kindStep, C87.heap_eq, C87.allocates]; split <;> simp_all
      | _ => simp [kindStep, C87.allocates]
    | _ => simp [kindStep, C87.allocates]) s m

theorem C87.retSet (s : Stats) (m : Module) : (loops s m).retResInstructions =
    (C87.insts m).foldl (fun a p => if (p.2.kind matches .ret) || (p.2.kind matches .resume) then insert p.2.id a else a)
      s.retResInstructions :=
  C87.loops_inst (·.retResInstructions) (fun _ i a => if (i.kind matches .ret) || (i.kind matches .resume) then insert i.id a else a)
    (fun _ _ => rfl) (fun _ _ => rfl) (fun _ _ => rfl) (by
    intro b s i
    unfold instStep
    cases hk : i.kind with
    | call called mem dbg users =>
      cases called with
      | fn n => simp only [kindStep]; split <;> simp
      | _ => simp [kindStep]
    | _ => simp [kindStep]) s m

theorem C87.ctorCalls_spec (dest elem : Ty) : ∀ (us : List CastUser) (r : List Ty × Bool),
    (∀ t, t ∈ (ctorCalls dest elem us r).1 ↔ t ∈ r.1 ∨ (t = elem ∧ ∃ ps, CastUser.call (some (dest :: ps)) ∈ us)) ∧
    ((ctorCalls dest elem us r).2 = true ↔ r.2 = true ∨ CastUser.call (some []) ∈ us) := by
  intro us
  induction us with
  | nil => intro r; simp [ctorCalls]
  | cons u us ih =>
    rintro ⟨ts, ub⟩
    cases u with
    | other => simp only [ctorCalls]; simpa using ih (ts, ub)
    | call fs =>
      cases fs with
      | none => simp only [ctorCalls]; simpa using ih (ts, ub)
      | some fs =>
        cases fs with
        | nil =>
          simp only [ctorCalls]
          obtain ⟨h1, h2⟩ := ih (ts, true)
          exact ⟨fun t => by rw [h1]; simp, by rw [h2]; simp⟩
        | cons p ps =>
          simp only [ctorCalls]
          obtain ⟨h1, h2⟩ := ih (if p = dest then insert elem ts else ts, ub)
          refine ⟨fun t => ?_, by rw [h2]; simp⟩
          rw [h1]
          by_cases e : p = dest
          · subst e
            simp only [if_true, C87.mem_insert, List.mem_cons, CastUser.call.injEq, Option.some.injEq, List.cons.injEq, true_and]
            constructor
            · rintro ((h | h) | ⟨h, ps', h'⟩)
              · exact .inr ⟨h, ps, .inl rfl⟩
              · exact .inl h
              · exact .inr ⟨h, ps', .inr h'⟩
            · rintro (h | ⟨h, _, _⟩)
              · exact .inl (.inr h)
              · exact .inl (.inl h)
          · rw [if_neg e]
            simp [Ne.symm e]

theorem C87.collect_spec : ∀ (us : List CallUser) (r : List Ty × Bool),
    (∀ t, t ∈ (collectAllocatedTypes us r).1 ↔ t ∈ r.1 ∨
      ∃ id cs ps, t = .struct id ∧ CallUser.bitcast (.ptr t) cs ∈ us ∧ CastUser.call (some (.ptr t :: ps)) ∈ cs) ∧
    ((collectAllocatedTypes us r).2 = true ↔ r.2 = true ∨
      ∃ id cs, CallUser.bitcast (.ptr (.struct id)) cs ∈ us ∧ CastUser.call (some []) ∈ cs) := by
  intro us
  induction us with
  | nil => intro r; simp [collectAllocatedTypes]
  | cons u us ih =>
    intro r
    have skip : (∀ id cs, u ≠ .bitcast (.ptr (.struct id)) cs) → collectAllocatedTypes (u :: us) r = collectAllocatedTypes us r := by
      intro h
      rw [collectAllocatedTypes]
      exact h
    by_cases h : ∃ id cs, u = .bitcast (.ptr (.struct id)) cs
    · obtain ⟨id, cs, rfl⟩ := h
      simp only [collectAllocatedTypes]
      obtain ⟨h1, h2⟩ := ih (ctorCalls (.ptr (.struct id)) (.struct id) cs r)
      obtain ⟨k1, k2⟩ := C87.ctorCalls_spec (.ptr (.struct id)) (.struct id) cs r
      constructor
      · intro t
        rw [h1, k1, or_assoc]
        refine or_congr Iff.rfl ⟨?_, ?_⟩
        · rintro (⟨rfl, ps, h⟩ | ⟨i, cs', ps, e, h, h'⟩)
          · exact ⟨id, cs, ps, rfl, List.mem_cons_self .., h⟩
          · exact ⟨i, cs', ps, e, List.mem_cons_of_mem _ h, h'⟩
        · rintro ⟨i, cs', ps, e, h, h'⟩
          rcases List.mem_cons.1 h with h | h
          · cases h; exact .inl ⟨rfl, ps, h'⟩
          · exact .inr ⟨i, cs', ps, e, h, h'⟩
      · rw [h2, k2, or_assoc]
        refine or_congr Iff.rfl ⟨?_, ?_⟩
        · rintro (h | ⟨i, cs', h, h'⟩)
          · exact ⟨id, cs, List.mem_cons_self .., h⟩
          · exact ⟨i, cs', List.mem_cons_of_mem _ h, h'⟩
        · rintro ⟨i, cs', h, h'⟩
          rcases List.mem_cons.1 h with h | h
          · cases h; exact .inl h'
          · exact .inr ⟨i, cs', h, h'⟩
    · have hn : ∀ id cs, u ≠ .bitcast (.ptr (.struct id)) cs := fun id cs e => h ⟨id, cs, e⟩
      rw [skip hn]
      obtain ⟨h1, h2⟩ := ih r
      constructor
      · intro t
        rw [h1]
        refine or_congr Iff.rfl ⟨?_, ?_⟩
        · rintro ⟨i, cs', ps, e, h, h'⟩; exact ⟨i, cs', ps, e, List.mem_cons_of_mem _ h, h'⟩
        · rintro ⟨i, cs', ps, e, h, h'⟩
          rcases List.mem_cons.1 h with h | h
          · subst e; exact absurd h.symm (hn _ _)
          · exact ⟨i, cs', ps, e, h, h'⟩
      · rw [h2]
        refine or_congr Iff.rfl ⟨?_, ?_⟩
        · rintro ⟨i, cs', h, h'⟩; exact ⟨i, cs', List.mem_cons_of_mem _ h, h'⟩
        · rintro ⟨i, cs', h, h'⟩
          rcases List.mem_cons.1 h with h | h
          · exact absurd h.symm (hn _ _)
          · exact ⟨i, cs', h, h'⟩

/-- What an instruction does to the set of types. -/
def C87.tyStep (k : Kind) (r : List Ty × Bool) : List Ty × Bool :=
  match k with
  | .alloca t => (insert t r.1, r.2)
  | .call (.fn n) _ _ us => if isHeapAllocating n then collectAllocatedTypes us r else r
  | _ => r

theorem C87.tyStep_spec (k : Kind) (r : List Ty × Bool) :
    (∀ t, t ∈ (C87.tyStep k r).1 ↔ t ∈ r.1 ∨ C87.Allocates t k) ∧ ((C87.tyStep k r).2 = true ↔ r.2 = true ∨ C87.Bad k) := by
  cases k with
  | alloca t' =>
    refine ⟨fun t => ?_, ?_⟩
    · simp [C87.tyStep, C87.mem_insert, C87.Allocates, or_comm, eq_comm]
    · simp [C87.tyStep, C87.Bad]
  | call called mem dbg us =>
    cases called with
    | fn n =>
      simp only [C87.tyStep]
      have hn : isHeapAllocating n = true ↔ n ∈ C87.heapNames := by rw [C87.heap_eq]; simp
      by_cases h : n ∈ C87.heapNames
      · rw [if_pos (hn.2 h)]
        obtain ⟨h1, h2⟩ := C87.collect_spec us r
        refine ⟨fun t => ?_, ?_⟩
        · rw [h1]
          refine or_congr Iff.rfl ⟨fun h' => .inr ⟨n, mem, dbg, us, rfl, h, h'⟩, ?_⟩
          rintro (h' | ⟨_, _, _, _, e, _, h'⟩)
          · cases h'
          · cases e; exact h'
        · rw [h2]
          refine or_congr Iff.rfl ⟨fun h' => ⟨n, mem, dbg, us, rfl, h, h'⟩, ?_⟩
          rintro ⟨_, _, _, _, e, _, h'⟩
          cases e; exact h'
      · rw [if_neg (mt hn.1 h)]
        refine ⟨fun t => ⟨.inl, ?_⟩, ⟨.inl, ?_⟩⟩
        · rintro (h' | h' | ⟨_, _, _, _, e, h', _⟩)
          · exact h'
          · cases h'
          · cases e; exact absurd h' h
        · rintro (h' | ⟨_, _, _, _, e, h', _⟩)
          · exact h'
          · cases e; exact absurd h' h
    | _ => simp [C87.tyStep, C87.Allocates, C87.Bad]
  | _ => simp [C87.tyStep, C87.Allocates, C87.Bad]

theorem C87.types (s : Stats) (m : Module) :
    (∀ t, t ∈ (loops s m).allocatedTypes ↔ t ∈ s.allocatedTypes ∨ ∃ p ∈ C87.insts m, C87.Allocates t p.2.kind) ∧
    ((loops s m).undefinedAt = true ↔ s.undefinedAt = true ∨ ∃ p ∈ C87.insts m, C87.Bad p.2.kind) := by
  have key : ((loops s m).allocatedTypes, (loops s m).undefinedAt) =
      (C87.insts m).foldl (fun a p => C87.tyStep p.2.kind a) (s.allocatedTypes, s.undefinedAt) :=
    C87.loops_inst (fun s => (s.allocatedTypes, s.undefinedAt)) (fun _ i a => C87.tyStep i.kind a) (fun _ _ => rfl) (fun _ _ => rfl)
      (fun _ _ => rfl) (by
      intro b s i
      unfold instStep
      cases hk : i.kind with
      | call called mem dbg users =>
        cases called with
        | fn n => simp only [kindStep, C87.tyStep]; split <;> simp
        | _ => simp [kindStep, C87.tyStep]
      | _ => simp [kindStep, C87.tyStep]) s m
  have gen : ∀ (l : List (Block × Inst)) (r : List Ty × Bool),
      (∀ t, t ∈ (l.foldl (fun a p => C87.tyStep p.2.kind a) r).1 ↔ t ∈ r.1 ∨ ∃ p ∈ l, C87.Allocates t p.2.kind) ∧
      ((l.foldl (fun a p => C87.tyStep p.2.kind a) r).2 = true ↔ r.2 = true ∨ ∃ p ∈ l, C87.Bad p.2.kind) := by
    intro l
    induction l with
    | nil => intro r; simp
    | cons p l ih =>
      intro r
      rw [List.foldl_cons]
      obtain ⟨h1, h2⟩ := ih (C87.tyStep p.2.kind r)
      obtain ⟨k1, k2⟩ := C87.tyStep_spec p.2.kind r
      refine ⟨fun t => ?_, ?_⟩
      · rw [h1, k1]; simp only [List.mem_cons, exists_eq_or_imp, or_assoc]
      · rw [h2, k2]; simp only [List.mem_cons, exists_eq_or_imp, or_assoc]
  obtain ⟨g1, g2⟩ := gen (C87.insts m) (s.allocatedTypes, s.undefinedAt)
  rw [← key] at g1 g2
  exact ⟨g1, g2⟩

/-! ## Theorems -/

theorem C87.run_eq {s r : Stats} {m : Module} (h : runOnModule s m = some r) : r = loops s m := by
  unfold runOnModule at h
  simp only at h
  split at h
  · cases h
  · exact (Option.some.inj h).symm

theorem C87.nonConst (l : List Global) : l.length - l.countP (·.isConst) = l.countP fun g => !g.isConst := by
  have := List.length_eq_countP_add_countP (fun g : Global => g.isConst) (l := l)
  have e : l.countP (fun g => decide ¬g.isConst = true) = l.countP fun g => !g.isConst := by
    congr 1; funext g; cases g.isConst <;> rfl
  omega

/-- C87, the JSON report: every entry is the count that its name says, of the functions, global variables, basic blocks and instructions of
the module, with the four maxima as `C87_max` says; `AllocaInstructions` counts the calls that allocate on the heap, too.  The instructions
are objects, thus distinct. -/
theorem C87_report {m : Module} {r : Stats} (h : runOnModule {} m = some r) (hd : ((C87.insts m).map (·.2.id)).Nodup) :
    json r =
      [("Instructions", .nat (C87.insts m).length),
       ("Functions", .nat m.funcs.length),
       ("ExternalFunctions", .nat (m.funcs.countP (·.external))),
       ("FunctionDefinitions", .nat (m.funcs.countP (!·.isDecl))),
       ("AddressTakenFunctions", .nat r.addressTakenFunctions),
       ("Globals", .nat m.globals.length),
       ("GlobalConsts", .nat (m.globals.countP (·.isConst))),
       ("GlobalVariables", .nat (m.globals.countP (!·.isConst))),
       ("ExternalGlobals", .nat (m.globals.countP (·.external))),
       ("GlobalsDefinitions", .nat (m.globals.countP (!·.isDecl))),
       ("AllocaInstructions", .nat (C87.count m C87.allocates)),
       ("CallSites", .nat (C87.count m (· matches .call ..))),
       ("IndirectCallSites", .nat (C87.count m (· matches .call .other _ _ _))),
       ("NumInlineAssembly", .nat (C87.count m (· matches .call .inlineAsm _ _ _))),
       ("MemoryIntrinsics", .nat (C87.count m (· matches .call _ true _ _))),
       ("DebugIntrinsics", .nat (C87.count m (· matches .call _ _ true _))),
       ("Switches", .nat (C87.count m (· matches .switch))),
       ("GetElementPtrs", .nat (C87.count m (· matches .gep))),
       ("PhiNodes", .nat (C87.count m (· matches .phi))),
       ("LandingPads", .nat (C87.count m (· matches .landingPad))),
       ("BasicBlocks", .nat (C87.blocks m).length),
       ("TotalNumPredecessorBBs", .nat ((C87.blocks m).map (·.preds.length)).sum),
       ("Branches", .nat (C87.count m (· matches .branch))),
       ("AvgPredPerBasicBlock", .quot ((C87.blocks m).map (·.preds.length)).sum (C87.blocks m).length),
       ("MaxPredPerBasicBlock", .nat r.maxNumPredecessorBBs),
       ("AvgSuccPerBasicBlock", .quot ((C87.blocks m).map (·.succs.length)).sum (C87.blocks m).length),
       ("MaxSuccPerBasicBlock", .nat r.maxNumSuccessorBBs),
       ("AvgOperandsPerInst", .quot ((C87.insts m).map (·.2.numOps)).sum (C87.insts m).length),
       ("MaxNumOperandsPerInst", .nat r.maxNumOperands),
       ("AvgUsesPerInst", .quot ((C87.insts m).map (·.2.uses.length)).sum (C87.insts m).length),
       ("MaxUsesPerInst", .nat r.maxNumUses),
       ("NumInstWithMultipleUses", .nat ((C87.insts m).countP fun p => decide (2 ≤ p.2.uses.length))),
       ("NonVoidInsts", .nat ((C87.insts m).countP fun p => !p.2.isVoid)),
       ("NumInstsUsedOutsideBB", .nat ((C87.insts m).countP fun p => p.2.uses.any (· != p.1.id)))] := by
  obtain rfl := C87.run_eq h
  have ha : (loops {} m).allocaInstructions.length = C87.count m C87.allocates := by
    rw [C87.allocaSet, (C87.set C87.allocates _ _ .nil).2.2 hd (fun _ _ => List.not_mem_nil)]
    simp [C87.count]
  unfold json
  rw [ha]
  simp only [C87.instructions, C87.numFuncs, C87.extFuncs, C87.funcDefs, C87.numGlobals, C87.consts, C87.extGlobals, C87.globalDefs,
    C87.callSites, C87.indCalls, C87.asms, C87.mems, C87.dbgs, C87.switches, C87.geps, C87.phiNodes, C87.landingPads, C87.numBlocks,
    C87.preds, C87.succs, C87.branches, C87.operands, C87.uses, C87.multiple, C87.nonVoid, C87.outside, Nat.zero_add, C87.nonConst]

/-- C87, the counters that are not in the report, and the sets. -/
theorem C87_sets {m : Module} {r : Stats} (h : runOnModule {} m = some r) :
    r.storeInstructions = C87.count m (· matches .store) ∧ r.loadInstructions = C87.count m (· matches .load) ∧
    r.allocationSites = C87.count m C87.allocates ∧
    (∀ x, x ∈ r.allocaInstructions ↔ ∃ p ∈ C87.insts m, C87.allocates p.2.kind = true ∧ p.2.id = x) ∧
    (∀ x, x ∈ r.retResInstructions ↔ ∃ p ∈ C87.insts m, (p.2.kind = .ret ∨ p.2.kind = .resume) ∧ p.2.id = x) ∧
    (∀ t, t ∈ r.allocatedTypes ↔ ∃ p ∈ C87.insts m, C87.Allocates t p.2.kind) := by
  obtain rfl := C87.run_eq h
  refine ⟨?_, ?_, ?_, fun x => ?_, fun x => ?_, fun t => ?_⟩
  · rw [C87.stores, Nat.zero_add]
  · rw [C87.loads, Nat.zero_add]
  · rw [C87.allocs, Nat.zero_add]
  · rw [C87.allocaSet, (C87.set C87.allocates _ _ .nil).2.1]
    simp
  · rw [C87.retSet, (C87.set (fun k => (k matches .ret) || (k matches .resume)) _ _ .nil).2.1]
    simp only [List.not_mem_nil, false_or]
    constructor
    · rintro ⟨p, h1, h2, h3⟩
      refine ⟨p, h1, ?_, h3⟩
      cases hk : p.2.kind <;> simp [hk] at h2 ⊢
    · rintro ⟨p, h1, h2, h3⟩
      refine ⟨p, h1, ?_, h3⟩
      rcases h2 with h2 | h2 <;> simp [h2]
  · rw [(C87.types {} m).1]
    simp

/-- C87: the pass runs into undefined behaviour exactly if a pointer to allocated memory is cast to a pointer to a struct and passed to a
function without parameters. -/
theorem C87_undefined (m : Module) : runOnModule {} m = none ↔ ∃ p ∈ C87.insts m, C87.Bad p.2.kind := by
  have := (C87.types {} m).2
  simp only [Bool.false_eq_true, false_or] at this
  rw [← this]
  unfold runOnModule
  simp

/-! The text report -/

/-- C87, the text report: its rows are the entries of the JSON report, in the same order, but for the total of the predecessors. -/
theorem C87_text (r : Stats) :
    (text r).map (·.2) = ((json r).eraseIdx 21).map (·.2) ∧
    (json r)[21]? = some ("TotalNumPredecessorBBs", .nat r.totalNumPredecessorBBs) ∧
    (text r).map (·.1) = ["LLVM IR instructions", "Functions", "External Functions", "Function Definitions", "Address-Taken Functions",
      "Globals", "Global Constants", "Global Variables", "External Globals", "Global Definitions", "Alloca Instructions", "Call Sites",
      "Indirect Call Sites", "Inline Assemblies", "Memory Intrinsics", "Debug Intrinsics", "Switches", "GetElementPtrs", "Phi Nodes",
      "LandingPads", "Basic Blocks", "Branches", "Avg #pred per BasicBlock", "Max #pred per BasicBlock", "Avg #succ per BasicBlock",
      "Max #succ per BasicBlock", "Avg #operands per Inst", "Max #operands per Inst", "Avg #uses per Inst", "Max #uses per Inst",
      "Insts with >1 uses", "Non-void Insts", "Insts used outside its BB"] := ⟨rfl, rfl, rfl⟩

/-- C87, the blanks: a row is filled up to column 32, and three more for quotients; a longer name is followed by none. -/
theorem C87_indent (n : Nat) (h : n + 1 < 2 ^ 64) (floating : Bool) :
    (indent (BitVec.ofNat 64 n) floating).toNat = (32 - (n + 1)) + (if floating then 3 else 0) := by
  have hl : (BitVec.ofNat 64 n + 1).toNat = n + 1 := by
    rw [BitVec.toNat_add, BitVec.toNat_ofNat]
    simp; omega
  have hlt : (BitVec.ofNat 64 n + 1 < 32) ↔ n + 1 < 32 := by
    rw [BitVec.lt_def, hl]; rfl
  have hf : ((if floating then (1 : BitVec 64) else 0) * 3).toNat = if floating then 3 else 0 := by
    cases floating <;> rfl
  unfold indent
  simp only
  rw [BitVec.toNat_add, hf]
  by_cases hc : n + 1 < 32
  · rw [if_pos (hlt.2 hc)]
    have : (-1 : BitVec 64) = BitVec.allOnes 64 := by decide
    rw [this, BitVec.allOnes_and, BitVec.toNat_sub, hl]
    have : (32 : BitVec 64).toNat = 32 := rfl
    rw [this]
    cases floating <;> simp <;> omega
  · rw [if_neg (mt hlt.1 hc)]
    have : (0 : BitVec 64) = 0#64 := rfl
    rw [this, BitVec.zero_and]
    cases floating <;> simp <;> omega

/-- C87: all rows of the text report are aligned. -/
theorem C87_aligned (r : Stats) {name : String} {v : Num} (h : (name, v) ∈ text r) :
    name.length + 1 + (indent (BitVec.ofNat 64 name.length) (v matches .quot ..)).toNat =
      if (v matches .quot ..) then 35 else 32 := by
  have hl : name.length + 1 ≤ 32 := by
    have : ∀ x ∈ (text r).map (·.1), x.length + 1 ≤ 32 := by
      rw [(C87_text r).2.2]; decide
    exact this name (List.mem_map.2 ⟨_, h, rfl⟩)
  rw [C87_indent _ (by omega)]
  cases v <;> simp <;> omega

/-! The maxima -/

theorem C87.bump_iff (k : Nat) : ∀ (l : List Nat) (a : Nat), k ≤ l.foldl bump a ↔ k ≤ a ∨
    ∃ l' : List Nat, l'.Sublist l ∧ a + l'.length = k ∧ ∀ (j : Nat) (x : Nat), l'[j]? = some x → a + j < x := by
  intro l
  induction l with
  | nil =>
    intro a
    constructor
    · exact .inl
    · rintro (h | ⟨l', h1, h2, _⟩)
      · exact h
      · rw [List.sublist_nil.1 h1] at h2
        exact Nat.le_of_eq h2.symm
  | cons x l ih =>
    intro a
    rw [List.foldl_cons, ih]
    by_cases hx : x > a
    · have e : bump a x = a + 1 := if_pos hx
      rw [e]
      constructor
      · rintro (h | ⟨l', h1, h2, h3⟩)
        · by_cases hk : k ≤ a
          · exact .inl hk
          · refine .inr ⟨[x], (List.nil_sublist l).cons_cons x, by simp; omega, ?_⟩
            intro j y hj
            match j, hj with
            | 0, hj => cases hj; exact hx
        · refine .inr ⟨x :: l', h1.cons_cons x, by simp; omega, ?_⟩
          intro j y hj
          match j, hj with
          | 0, hj => cases hj; exact hx
          | j + 1, hj => have := h3 j y hj; omega
      · rintro (h | ⟨l', h1, h2, h3⟩)
        · exact .inl (by omega)
        · cases l' with
          | nil => exact .inl (by simp at h2; omega)
          | cons y l' =>
            refine .inr ⟨l', ?_, by simp at h2; omega, fun j z hj => by have := h3 (j + 1) z hj; omega⟩
            cases h1 with
            | cons _ h1 => exact (List.sublist_cons_self y l').trans h1
            | cons_cons _ h1 => exact h1
    · have e : bump a x = a := if_neg hx
      rw [e]
      refine or_congr Iff.rfl ⟨?_, ?_⟩
      · rintro ⟨l', h1, h2, h3⟩
        exact ⟨l', h1.cons x, h2, h3⟩
      · rintro ⟨l', h1, h2, h3⟩
        refine ⟨l', ?_, h2, h3⟩
        cases h1 with
        | cons _ h1 => exact h1
        | cons_cons _ h1 => exact absurd (h3 0 x rfl) (by omega)

/-- Specification: of the numbers of the list, some `k` come in an order in which the first is at least 1, the second at least 2, and so on. -/
def C87.Climbs (l : List Nat) (k : Nat) : Prop :=
  ∃ l' : List Nat, l'.Sublist l ∧ l'.length = k ∧ ∀ (j : Nat) (x : Nat), l'[j]? = some x → j + 1 ≤ x

theorem C87.bump_climbs (l : List Nat) (k : Nat) : k ≤ l.foldl bump 0 ↔ C87.Climbs l k := by
  rw [C87.bump_iff]
  constructor
  · rintro (h | ⟨l', h1, h2, h3⟩)
    · exact ⟨[], List.nil_sublist _, by simp; omega, nofun⟩
    · exact ⟨l', h1, by omega, fun j x hx => by have := h3 j x hx; omega⟩
  · rintro ⟨l', h1, h2, h3⟩
    exact .inr ⟨l', h1, by omega, fun j x hx => by have := h3 j x hx; omega⟩

/-- C87, the maxima: what is reported as the maximum of the numbers of predecessors, successors, operands and uses is the length of the
longest climb among these numbers. -/
theorem C87_max {m : Module} {r : Stats} (h : runOnModule {} m = some r) (k : Nat) :
    (k ≤ r.maxNumPredecessorBBs ↔ C87.Climbs ((C87.blocks m).map (·.preds.length)) k) ∧
    (k ≤ r.maxNumSuccessorBBs ↔ C87.Climbs ((C87.blocks m).map (·.succs.length)) k) ∧
    (k ≤ r.maxNumOperands ↔ C87.Climbs ((C87.insts m).map (·.2.numOps)) k) ∧
    (k ≤ r.maxNumUses ↔ C87.Climbs ((C87.insts m).map (·.2.uses.length)) k) := by
  obtain rfl := C87.run_eq h
  rw [C87.maxPreds, C87.maxSuccs, C87.maxOps, C87.maxUses]
  exact ⟨C87.bump_climbs _ k, C87.bump_climbs _ k, C87.bump_climbs _ k, C87.bump_climbs _ k⟩

theorem C87.climbs_le {l : List Nat} {k b : Nat} (h : C87.Climbs l k) (hb : ∀ x ∈ l, x ≤ b) : k ≤ b ∧ k ≤ l.length := by
  obtain ⟨l', h1, h2, h3⟩ := h
  refine ⟨?_, by have := h1.length_le; omega⟩
  cases k with
  | zero => exact Nat.zero_le _
  | succ k =>
    have hk : k < l'.length := by omega
    have := h3 k l'[k] (List.getElem?_eq_getElem hk)
    have := hb l'[k] (h1.subset (List.getElem_mem hk))
    omega

/-- C87, the maxima, in part: they are never larger than the greatest number, nor than how many numbers there are.  Missing: that they are
the greatest number, which is false (`C87_max_false`). -/
theorem C87_max_partial {m : Module} {r : Stats} (h : runOnModule {} m = some r) (b : Nat) :
    ((∀ x ∈ C87.blocks m, x.preds.length ≤ b) → r.maxNumPredecessorBBs ≤ b) ∧
    ((∀ x ∈ C87.blocks m, x.succs.length ≤ b) → r.maxNumSuccessorBBs ≤ b) ∧
    ((∀ x ∈ C87.insts m, x.2.numOps ≤ b) → r.maxNumOperands ≤ b) ∧
    ((∀ x ∈ C87.insts m, x.2.uses.length ≤ b) → r.maxNumUses ≤ b) ∧
    r.maxNumPredecessorBBs ≤ (C87.blocks m).length ∧ r.maxNumSuccessorBBs ≤ (C87.blocks m).length ∧
    r.maxNumOperands ≤ (C87.insts m).length ∧ r.maxNumUses ≤ (C87.insts m).length := by
  have len : ∀ {l : List Nat} {k : Nat}, C87.Climbs l k → k ≤ l.length := by
    rintro l k ⟨l', h1, h2, _⟩
    have := h1.length_le; omega
  refine ⟨fun hb => ?_, fun hb => ?_, fun hb => ?_, fun hb => ?_, ?_, ?_, ?_, ?_⟩
  · exact (C87.climbs_le ((C87_max h _).1.1 (Nat.le_refl _)) (by simpa using hb)).1
  · exact (C87.climbs_le ((C87_max h _).2.1.1 (Nat.le_refl _)) (by simpa using hb)).1
  · exact (C87.climbs_le ((C87_max h _).2.2.1.1 (Nat.le_refl _)) (by
      intro x hx; obtain ⟨p, hp, rfl⟩ := List.mem_map.1 hx; exact hb p hp)).1
  · exact (C87.climbs_le ((C87_max h _).2.2.2.1 (Nat.le_refl _)) (by
      intro x hx; obtain ⟨p, hp, rfl⟩ := List.mem_map.1 hx; exact hb p hp)).1
  · simpa using len ((C87_max h _).1.1 (Nat.le_refl _))
  · simpa using len ((C87_max h _).2.1.1 (Nat.le_refl _))
  · simpa using len ((C87_max h _).2.2.1.1 (Nat.le_refl _))
  · simpa using len ((C87_max h _).2.2.2.1 (Nat.le_refl _))

/-! Address-taken functions -/

/-- C87, address-taken functions: counted are those with a use that is no operand of a call of this very function. -/
theorem C87_address_taken {m : Module} {r : Stats} (h : runOnModule {} m = some r) (f : Func) :
    r.addressTakenFunctions = m.funcs.countP isAddressTaken ∧
    (isAddressTaken f = true ↔ FunUse.other ∈ f.uses ∨ ∃ c b, FunUse.call c b ∈ f.uses ∧ c ≠ f.id) := by
  obtain rfl := C87.run_eq h
  refine ⟨by rw [C87.taken, Nat.zero_add], ?_⟩
  unfold isAddressTaken
  rw [List.any_eq_true]
  constructor
  · rintro ⟨u, hu, h⟩
    cases u with
    | other => exact .inl hu
    | call c b => exact .inr ⟨c, b, hu, Ne.symm (bne_iff_ne.1 h)⟩
  · rintro (hu | ⟨c, b, hu, hc⟩)
    · exact ⟨_, hu, rfl⟩
    · exact ⟨_, hu, bne_iff_ne.2 (Ne.symm hc)⟩

/-- C87, address-taken functions, in part: a function that is not passed to itself is counted exactly if it is used other than by being
called.  Missing: functions passed to themselves, for which it is false (`C87_address_taken_false`). -/
theorem C87_address_taken_partial (f : Func) (hcallee : ∀ c, FunUse.call c true ∈ f.uses → c = f.id)
    (hself : FunUse.call f.id false ∉ f.uses) :
    isAddressTaken f = true ↔ ∃ u ∈ f.uses, ¬ ∃ c, u = .call c true := by
  unfold isAddressTaken
  rw [List.any_eq_true]
  constructor
  · rintro ⟨u, hu, h⟩
    refine ⟨u, hu, ?_⟩
    rintro ⟨c, rfl⟩
    simp [hcallee c hu] at h
  · rintro ⟨u, hu, h⟩
    refine ⟨u, hu, ?_⟩
    cases u with
    | other => rfl
    | call c b =>
      cases b with
      | true => exact absurd ⟨c, rfl⟩ h
      | false =>
        have : f.id ≠ c := by rintro rfl; exact hself hu
        simpa using this

/-! Examples and findings -/

/-- `void g(...); void f() { S *s = (S *)malloc(8); S_ctor(s); int x = ...; phi, switch, … }` and a function that is passed to itself. -/
def C87.ex : Module where
  funcs :=
    [{ id := 1, external := true, isDecl := false, uses := [.call 1 true, .call 1 false]
       blocks :=
        [{ id := 10, preds := [], succs := [11, 11, 12]
           insts :=
            [{ id := 100, numOps := 1, uses := [10, 11], isVoid := false, kind := .alloca (.other 32) },
             { id := 101, numOps := 2, uses := [10], isVoid := false
               kind := .call (.fn "malloc") false false [.bitcast (.ptr (.struct 7)) [.call (some [.ptr (.struct 7)])]] },
             { id := 102, numOps := 5, uses := [], isVoid := true, kind := .switch }] },
         { id := 11, preds := [10, 10], succs := [12]
           insts := [{ id := 103, numOps := 1, uses := [], isVoid := true, kind := .branch }] },
         { id := 12, preds := [10, 11], succs := []
           insts :=
            [{ id := 104, numOps := 2, uses := [12], isVoid := false, kind := .phi },
             { id := 105, numOps := 2, uses := [], isVoid := true, kind := .call .other false false [] },
             { id := 106, numOps := 0, uses := [], isVoid := true, kind := .ret }] }] },
     { id := 2, external := true, isDecl := true, uses := [.call 2 true, .other], blocks := [] }]
  globals := [{ isConst := true, isDecl := false, external := false }, { isConst := false, isDecl := true, external := true }]

/-- The hypotheses of the theorems: the pass runs on the example, whose instructions are distinct. -/
example : ∃ r, runOnModule {} C87.ex = some r ∧ ((C87.insts C87.ex).map (·.2.id)).Nodup ∧
    (json r).lookup "AllocaInstructions" = some (.nat 2) ∧ (json r).lookup "IndirectCallSites" = some (.nat 1) ∧
    (json r).lookup "AvgPredPerBasicBlock" = some (.quot 4 3) ∧ (json r).lookup "NumInstsUsedOutsideBB" = some (.nat 1) ∧
    r.allocatedTypes = [.struct 7, .other 32] := by
  refine ⟨_, rfl, ?_, ?_, ?_, ?_, ?_, ?_⟩ <;> decide +kernel

example : ∃ r, runOnModule {} C87.ex = some r ∧ json r = json (loops {} C87.ex) ∧ r.storeInstructions = 0 := by
  refine ⟨_, rfl, rfl, ?_⟩
  rw [(C87_sets (m := C87.ex) (r := loops {} C87.ex) (by decide +kernel)).1]
  decide +kernel

/-- The hypotheses of `C87_undefined`: `malloc`ed memory passed to `void g();` of C. -/
example : runOnModule {} ⟨[{ id := 1, external := true, isDecl := false, uses := [], blocks := [{ id := 1, preds := [], succs := [], insts :=
    [{ id := 1, numOps := 2, uses := [1], isVoid := false
       kind := .call (.fn "malloc") false false [.bitcast (.ptr (.struct 7)) [.call (some [])]] }] }] }], []⟩ = none :=
  (C87_undefined _).2 ⟨_, List.mem_singleton.2 rfl, "malloc", false, false, _, rfl, by decide, 7, _, List.mem_singleton.2 rfl,
    List.mem_singleton.2 rfl⟩

example : (indent (BitVec.ofNat 64 "Branches".length) false).toNat = 23 := C87_indent 8 (by decide) false
example : (indent (BitVec.ofNat 64 40) true).toNat = 3 := C87_indent 40 (by decide) true

/-- The hypotheses of `C87_address_taken_partial`: a function that is called and stored. -/
example : isAddressTaken { id := 2, external := true, isDecl := true, uses := [.call 2 true, .other], blocks := [] } = true :=
  (C87_address_taken_partial _ (by simp) (by simp)).2 ⟨.other, by simp, by simp⟩

example : C87.Climbs [3, 0, 2, 1] 2 := ⟨[3, 2], by decide, rfl, fun j x h => by
  match j, h with
  | 0, h => cases h; decide
  | 1, h => cases h; decide⟩

/-- C87, finding: the maxima are no maxima: in the example, an instruction has 5 operands and a block has 3 successors; 3 and 1 are
reported, because the maximum is incremented instead of set (GeneralStatisticsAnalysis.cpp:96-101, 113-118). -/
theorem C87_max_false : ∃ r, runOnModule {} C87.ex = some r ∧ (json r).lookup "MaxNumOperandsPerInst" = some (.nat 3) ∧
    (∃ p ∈ C87.insts C87.ex, p.2.numOps = 5) ∧ (json r).lookup "MaxSuccPerBasicBlock" = some (.nat 1) ∧
    ∃ b ∈ C87.blocks C87.ex, b.succs.length = 3 := by
  refine ⟨_, rfl, ?_, ?_, ?_, ?_⟩ <;> decide +kernel

/-- C87, finding: a function whose address is passed to itself is not counted as address-taken: the use is told from the called operand by
its value, which is the same (GeneralStatisticsAnalysis.cpp:38). -/
theorem C87_address_taken_false : ∃ f : Func, (∀ c, FunUse.call c true ∈ f.uses → c = f.id) ∧
    (∃ u ∈ f.uses, ¬ ∃ c, u = .call c true) ∧ isAddressTaken f = false :=
  ⟨{ id := 1, external := true, isDecl := false, uses := [.call 1 true, .call 1 false], blocks := [] }, by simp,
    ⟨.call 1 false, by simp, by simp⟩, by decide⟩

/-- C87, finding: the pass does not start anew: run again, also on another module, it adds to what it has counted before. -/
theorem C87_rerun {m m' : Module} {r r' : Stats} (h : runOnModule {} m = some r) (h' : runOnModule r m' = some r') :
    r'.instructions = (C87.insts m).length + (C87.insts m').length ∧ r'.functions = m.funcs.length + m'.funcs.length := by
  obtain rfl := C87.run_eq h
  obtain rfl := C87.run_eq h'
  rw [C87.instructions, C87.instructions, C87.numFuncs, C87.numFuncs, Nat.zero_add, Nat.zero_add]
  exact ⟨rfl, rfl⟩

example : ∃ r r', runOnModule {} C87.ex = some r ∧ runOnModule r C87.ex = some r' ∧ r.instructions = 7 ∧ r'.instructions = 14 := by
  refine ⟨_, _, rfl, rfl, ?_, ?_⟩ <;> decide +kernel

end Phasar.Stats
