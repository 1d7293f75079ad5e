import Verif.Analysis.Uninit
/-!
# What programs do with undefined values

Specification for the analysis of uninitialized variables (`Verif/Analysis/Uninit.lean`): executions of programs in which the
memory of a new variable is undefined.  Nothing here uses the flow functions.

Simplifications: a memory object is one cell, so an address computation gives the same address and an array is initialized by
its first store.
-/
namespace Phasar.Uninit
open Phasar Phasar.IDE

/-- A memory object: a global variable or the `i`-th object allocated in the execution. -/
inductive Loc
  | glob (k : Nat)
  | obj (i : Nat)
deriving DecidableEq, Repr

/-- Contents of a register or memory cell. -/
inductive RVal
  | undef
  | data
  | ptr (ℓ : Loc)
deriving DecidableEq, Repr

/-- A suspended activation: the call and the registers. -/
structure Frame where
  c : Nat
  regs : Nat → RVal

/-- State of an execution: suspended activations, current statement, registers, memory, number of allocated objects. -/
structure CState where
  stk : List Frame
  n : Nat
  regs : Nat → RVal
  mem : Loc → RVal
  next : Nat

/-- `regs` with register `n` set to `x`. -/
def updR (regs : Nat → RVal) (n : Nat) (x : RVal) : Nat → RVal := fun k => if k = n then x else regs k

/-- `mem` with cell `ℓ` set to `x`. -/
def updM (mem : Loc → RVal) (ℓ : Loc) (x : RVal) : Loc → RVal := fun m => if m = ℓ then x else mem m

variable (p : Prog)

/-- Value of an operand; the value of a global is its address. -/
def Prog.val (regs : Nat → RVal) : Val → RVal
  | .node k => if p.isConst k then .ptr (.glob k) else regs k
  | .undef _ => .undef
  | _ => .data

/-- Following addresses from this value ends at an undefined value. -/
inductive Bad (mem : Loc → RVal) : RVal → Prop
  | undef : Bad mem .undef
  | ptr {ℓ} : Bad mem (mem ℓ) → Bad mem (.ptr ℓ)

/-- The value is not the address of an object that will be allocated. -/
def Old (next : Nat) : RVal → Prop
  | .ptr (.obj i) => i < next
  | _ => True

/-- Effect of a statement that is no call: result, memory, number of objects.  The result of arithmetic and select is data or
one of the operands; an address computed with an undefined index is undefined. -/
inductive Prog.Effect (n : Nat) (regs : Nat → RVal) (mem : Loc → RVal) (next : Nat) : RVal → (Loc → RVal) → Nat → Prop
  | alloca {t} : p.inst n = .alloca t → Prog.Effect n regs mem next (.ptr (.obj next)) (updM mem (.obj next) .undef) (next + 1)
  | store {v ptr ℓ} : p.inst n = .store v ptr → p.val regs ptr = .ptr ℓ →
      Prog.Effect n regs mem next .data (updM mem ℓ (p.val regs v)) next
  | load {ptr ℓ} : p.inst n = .load ptr → p.val regs ptr = .ptr ℓ → Prog.Effect n regs mem next (mem ℓ) mem next
  | gep {base idx} : p.inst n = .gep base idx → Prog.Effect n regs mem next (p.val regs base) mem next
  | gepUndef {base idx v} : p.inst n = .gep base idx → v ∈ idx → p.val regs v = .undef → Prog.Effect n regs mem next .undef mem next
  | cast {v} : p.inst n = .cast v → Prog.Effect n regs mem next (p.val regs v) mem next
  | phi {ops v} : p.inst n = .phi ops → v ∈ ops → Prog.Effect n regs mem next (p.val regs v) mem next
  | opData {ops} : p.inst n = .op ops → Prog.Effect n regs mem next .data mem next
  | op {ops v} : p.inst n = .op ops → v ∈ ops → Prog.Effect n regs mem next (p.val regs v) mem next

/-- Effect of a call `n` of the function `f` without a body: nothing becomes undefined, the result is defined, and if the
function initializes its arguments, what they point to is defined afterwards. -/
structure Prog.ExtEffect (n f : Nat) (regs : Nat → RVal) (mem : Loc → RVal) (next : Nat) (x : RVal) (mem' : Loc → RVal)
    (next' : Nat) : Prop where
  mono : next ≤ next'
  cell : ∀ y, Old next y → Bad mem' y → Bad mem y
  old : (∀ ℓ, Old next (mem ℓ)) → ∀ ℓ, Old next' (mem' ℓ)
  result : ¬ Bad mem' x
  resultOld : Old next' x
  init : p.inits f = true → ∀ a ∈ p.args n, p.isPtr a = true → ¬ Bad mem' (p.val regs a)

/-- One step of an execution.  Parameters get the values of the arguments, other registers of the new activation hold data. -/
inductive Prog.CStep : CState → CState → Prop
  | normal {stk n regs mem next n' x mem' next'} : p.icf.isCall n = false → n' ∈ p.icf.succs n →
      p.Effect n regs mem next x mem' next' → Prog.CStep ⟨stk, n, regs, mem, next⟩ ⟨stk, n', updR regs n x, mem', next'⟩
  | call {stk n regs mem next f sp regs'} : p.icf.isCall n = true → f ∈ p.icf.callees n → p.isDecl f = false →
      sp ∈ p.icf.starts f →
      (∀ (i k : Nat) (a : Val), (p.params f)[i]? = some k → (p.args n)[i]? = some a → regs' k = p.val regs a) →
      (∀ k, k ∉ p.params f → regs' k = .data) →
      Prog.CStep ⟨stk, n, regs, mem, next⟩ ⟨⟨n, regs⟩ :: stk, sp, regs', mem, next⟩
  | ret {fr stk n regs mem next r} : p.icf.isCall n = false → p.icf.isExit n = true → r ∈ p.icf.retSites fr.c →
      Prog.CStep ⟨fr :: stk, n, regs, mem, next⟩
        ⟨stk, r, updR fr.regs fr.c (match (p.operands n)[0]? with | some v => p.val regs v | none => .data), mem, next⟩
  | ext {stk n regs mem next f r x mem' next'} : p.icf.isCall n = true → f ∈ p.icf.callees n → p.isDecl f = true →
      r ∈ p.icf.retSites n → p.ExtEffect n f regs mem next x mem' next' →
      Prog.CStep ⟨stk, n, regs, mem, next⟩ ⟨stk, r, updR regs n x, mem', next'⟩

/-- Executions. -/
inductive Prog.CSteps : CState → CState → Prop
  | refl (s) : Prog.CSteps s s
  | tail {s t u} : Prog.CSteps s t → Prog.CStep p t u → Prog.CSteps s u

/-- Initial states: an entry point; nothing undefined can be reached from the registers and the globals. -/
structure Prog.Init (s : CState) : Prop where
  stk : s.stk = []
  entry : s.n ∈ p.entries
  regs : ∀ k, ¬ Bad s.mem (s.regs k)
  regsOld : ∀ k, Old s.next (s.regs k)
  memOld : ∀ ℓ, Old s.next (s.mem ℓ)

/-- The current statement reads an undefined value: it computes with one, or it loads one from memory or through one. -/
def Prog.ReadsUndef (t : CState) : Prop :=
  (∃ ops, p.inst t.n = .op ops ∧ ∃ v ∈ ops, p.val t.regs v = .undef) ∨
  ∃ ptr, p.inst t.n = .load ptr ∧ (p.val t.regs ptr = .undef ∨ ∃ ℓ, p.val t.regs ptr = .ptr ℓ ∧ t.mem ℓ = .undef)

/-! ## Programs for which the analysis misses nothing -/

/-- Statements. -/
def Prog.Stmt (n : Nat) : Prop := p.icf.isCall n = true ∨ p.icf.isExit n = true ∨ p.icf.succs n ≠ []

/-- Well-formed programs. -/
structure Prog.WF : Prop where
  icf : p.icf.WFV
  seeds : ∀ sp ∈ p.entries, sp ∈ p.icf.starts (p.icf.funOf sp)
  isCall : ∀ n, p.icf.isCall n = true ↔ ∃ as, p.inst n = .call as
  params : ∀ f k, k ∈ p.params f → ¬ p.Stmt k ∧ p.isConst k = false
  nodup : ∀ f, (p.params f).Nodup
  globals : ∀ k, p.isConst k = true → ¬ p.Stmt k
  operand : ∀ n, Val.zero ∉ p.operands n
  /-- The call passes at least one argument for each parameter (`Actuals[Idx]` and `getArgOperand` are defined), of its type. -/
  arity : ∀ n f, f ∈ p.icf.callees n → p.isDecl f = false → (p.params f).length ≤ (p.args n).length
  types : ∀ (n f i k : Nat) (a : Val), f ∈ p.icf.callees n → p.isDecl f = false → (p.params f)[i]? = some k → (p.args n)[i]? = some a →
    p.isPtr a = p.isPtr (.node k)

/-- The restrictions under which the analysis finds every use: no local variable is a structure or a vector; functions with a body
are called by name, by `call` or `invoke`, without additional arguments; no argument and no returned value is a literal `undef`;
functions without a body initialize what their pointer arguments point to. -/
inductive Restr
  | types
  | direct
  | noCallBr
  | noVarArg
  | args
  | ret
  | inits
deriving DecidableEq, Repr

/-- The program obeys the restriction. -/
def Prog.Obeys : Restr → Prop
  | .types => ∀ n t, p.inst n = .alloca t → t = .int ∨ t = .float ∨ t = .ptr ∨ t = .array
  | .direct => ∀ n f, f ∈ p.icf.callees n → p.isDecl f = false → p.called n = some f
  | .noCallBr => ∀ n f, f ∈ p.icf.callees n → p.isDecl f = false → p.callOrInvoke n = true
  | .noVarArg => ∀ n f, f ∈ p.icf.callees n → p.isDecl f = false → (p.args n).length ≤ (p.params f).length
  | .args => ∀ n f, f ∈ p.icf.callees n → p.isDecl f = false → ∀ a ∈ p.args n, a.isUndef = false
  | .ret => ∀ n, p.icf.isExit n = true → ∀ v, (p.operands n)[0]? = some v → v.isUndef = false
  | .inits => ∀ n f, f ∈ p.icf.callees n → p.isDecl f = true → p.inits f = true

/-- The program obeys all restrictions; each is needed (see `Verif/Analysis/UninitProps.lean`). -/
def Prog.Fit : Prop := ∀ r, p.Obeys r

/-- The state is unaliased with respect to undefined values: nothing undefined can be reached from a global, and if the current
statement stores an undefined value, the pointer operand becomes the only way to reach it in the current activation, and
arguments of the call the only one in a suspended activation. -/
structure Prog.Unaliased (t : CState) : Prop where
  globals : ∀ g, p.isConst g = true → ¬ Bad t.mem (.ptr (.glob g))
  top : ∀ v ptr ℓ, p.inst t.n = .store v ptr → p.val t.regs ptr = .ptr ℓ → Bad t.mem (p.val t.regs v) →
    ∀ k, p.isConst k = false → Bad (updM t.mem ℓ (p.val t.regs v)) (t.regs k) → Bad t.mem (t.regs k) ∨ ptr = .node k
  frames : ∀ v ptr ℓ, p.inst t.n = .store v ptr → p.val t.regs ptr = .ptr ℓ → Bad t.mem (p.val t.regs v) →
    ∀ fr ∈ t.stk, ∀ k, p.isConst k = false → Bad (updM t.mem ℓ (p.val t.regs v)) (fr.regs k) →
      Bad t.mem (fr.regs k) ∨ (.node k ∈ p.args fr.c ∧ p.isPtr (.node k) = true)

/-- Programs in which addresses are only loaded from, stored through and passed on, so that no state of theirs is aliased: no
address is stored, returned or computed with, an address is passed at most once to a function, globals are not passed and get
only literals, and all functions have bodies. -/
structure Prog.Plain : Prop where
  store : ∀ n v ptr, p.inst n = .store v ptr → p.isPtr v = false ∧ ∀ g, ptr = .node g → p.isConst g = true → ∃ c, v = .lit c
  gep : ∀ n base idx, p.inst n = .gep base idx → p.isPtr base = false
  cast : ∀ n v, p.inst n = .cast v → p.isPtr v = false
  phi : ∀ n ops, p.inst n = .phi ops → ∀ v ∈ ops, p.isPtr v = false
  op : ∀ n ops, p.inst n = .op ops → ∀ v ∈ ops, p.isPtr v = false
  ret : ∀ n, p.icf.isExit n = true → ∀ v, (p.operands n)[0]? = some v → p.isPtr v = false
  alloca : ∀ n t, p.inst n = .alloca t → p.isPtr (.node n) = true
  global : ∀ g, p.isConst g = true → p.isPtr (.node g) = true
  args : ∀ n g, p.isConst g = true → .node g ∉ p.args n
  once : ∀ (n i j : Nat) (a : Val), (p.args n)[i]? = some a → (p.args n)[j]? = some a → p.isPtr a = true → i = j
  bodies : ∀ n f, f ∈ p.icf.callees n → p.isDecl f = false

/-- Initial states without addresses. -/
structure PlainStart (s : CState) : Prop where
  regs : ∀ k, s.regs k = .data
  mem : ∀ ℓ, s.mem ℓ = .data

end Phasar.Uninit
