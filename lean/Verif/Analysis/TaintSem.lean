import Verif.Analysis.Taint
/-!
# What programs do with tainted data

Specification for the taint analysis (`Verif/Analysis/Taint.lean`): executions of programs with a taint bit on every value and
memory cell, and the effect of calls of configured functions, stated from the configuration alone.  Nothing here uses the flow
functions.

Simplifications: a memory object is one cell; memory holds no addresses (a store of an address has no step); constants hold no
taint; a function that is configured as source, sink or sanitizer, has a library summary, or has no body does only what the
configuration says.
-/
namespace Phasar.Taint
open Phasar Phasar.IDE

/-- A memory object: a global variable or the `i`-th object allocated in the execution. -/
inductive Loc
  | glob (k : Nat)
  | obj (i : Nat)
deriving DecidableEq, Repr

/-- Contents of a register: data with its taint bit, or an address. -/
inductive RVal
  | sc (t : Bool)
  | ptr (ℓ : Loc)
deriving DecidableEq, Repr

/-- A suspended activation: the call, the registers, and (for the proofs only, no step reads them) the memory and the number of
allocated objects at the time of the call. -/
structure Frame where
  c : Nat
  regs : Nat → RVal
  mem : Loc → Bool
  next : Nat

/-- State of an execution: suspended activations, current statement, registers, taint bits of the memory, and the number of
allocated objects. -/
structure CState where
  stk : List Frame
  n : Nat
  regs : Nat → RVal
  mem : Loc → Bool
  next : Nat

/-- `regs` with register `n` set to `x`. -/
def updR (regs : Nat → RVal) (n : Nat) (x : RVal) : Nat → RVal := fun k => if k = n then x else regs k

/-- `mem` with cell `ℓ` set to `t`. -/
def updM (mem : Loc → Bool) (ℓ : Loc) (t : Bool) : Loc → Bool := fun m => if m = ℓ then t else mem m

variable (p : Prog)

/-- Value of an operand; the value of a global is its address. -/
def Prog.val (regs : Nat → RVal) : Val → RVal
  | .node k => if p.isConst k then .ptr (.glob k) else regs k
  | _ => .sc false

/-- Data is tainted by its bit, an address by the cell. -/
def Hot (mem : Loc → Bool) : RVal → Prop
  | .sc t => t = true
  | .ptr ℓ => mem ℓ = true

/-- The operand is tainted. -/
def Prog.Tainted (regs : Nat → RVal) (mem : Loc → Bool) (v : Val) : Prop := Hot mem (p.val regs v)

/-! ## The configuration -/

/-- The call `n` of `f` makes `v` a source. -/
def Prog.GenAt (n f : Nat) (v : Val) : Prop :=
  (∃ g, p.srcCB = some g ∧ v ∈ g n) ∨ (p.isSource n = true ∧ v = .node n) ∨
  ∃ (i : Nat) (k : Nat), (p.params f)[i]? = some k ∧ p.isSource k = true ∧ (p.args n)[i]? = some v

/-- The call `n` of `f` makes `v` a sink. -/
def Prog.SinkAt (n f : Nat) (v : Val) : Prop :=
  (∃ g, p.sinkCB = some g ∧ v ∈ g n) ∨
  ∃ (i : Nat) (k : Nat), (p.params f)[i]? = some k ∧ p.isSink k = true ∧ (p.args n)[i]? = some v

/-- The call `n` of `f` sanitizes `v`. -/
def Prog.SaniAt (n f : Nat) (v : Val) : Prop :=
  ∃ (i : Nat) (k : Nat), (p.params f)[i]? = some k ∧ p.isSani k = true ∧ (p.args n)[i]? = some v

/-- The library function `f` moves data from parameter `i` to `t`. -/
def Prog.MovesTo (f i : Nat) (t : Target) : Prop :=
  (p.swift f = true ∧ (i = 1 ∨ i = 3) ∧ t = .ret) ∨
  (i < (p.params f).length ∧ ∃ m, p.fdff f = some m ∧ t ∈ lookupParam m i)

/-- Calls that execute no code of the program. -/
def Prog.External (n f : Nat) : Prop :=
  p.isDecl f = true ∨ p.swift f = true ∨ p.fdff f ≠ none ∨ ∃ v, p.GenAt n f v ∨ p.SinkAt n f v ∨ p.SaniAt n f v

/-! ## Steps -/

/-- Effect of a statement that is no call: result, memory, number of objects.  With `deep`, the result of an instruction the
analysis does not look at (phi, select, arithmetic) carries the taint of its operands or is one of them; without, it is
untainted data. -/
inductive Prog.Effect (deep : Bool) (n : Nat) (regs : Nat → RVal) (mem : Loc → Bool) (next : Nat) :
    RVal → (Loc → Bool) → Nat → Prop
  | alloca : p.inst n = .alloca → Prog.Effect deep n regs mem next (.ptr (.obj next)) (updM mem (.obj next) false) (next + 1)
  | store {v ptr ℓ t} : p.inst n = .store v ptr → p.val regs ptr = .ptr ℓ → p.val regs v = .sc t →
      (∀ g, ℓ = .glob g → p.constData g = false) → Prog.Effect deep n regs mem next (.sc false) (updM mem ℓ t) next
  | load {ptr ℓ} : p.inst n = .load ptr → p.val regs ptr = .ptr ℓ → Prog.Effect deep n regs mem next (.sc (mem ℓ)) mem next
  | gep {ptr} : p.inst n = .gep ptr → Prog.Effect deep n regs mem next (p.val regs ptr) mem next
  | extract {v} : p.inst n = .extract v → Prog.Effect deep n regs mem next (p.val regs v) mem next
  | insert {a v s t} : p.inst n = .insert a v → p.val regs a = .sc s → p.val regs v = .sc t →
      Prog.Effect deep n regs mem next (.sc (s || t)) mem next
  | cast {v} : p.inst n = .cast v → Prog.Effect deep n regs mem next (p.val regs v) mem next
  | op {ops} : p.inst n = .op ops → Prog.Effect deep n regs mem next (.sc false) mem next
  | opDeep {ops v} : p.inst n = .op ops → deep = true → v ∈ ops → Prog.Effect deep n regs mem next (p.val regs v) mem next

/-- Effect of an external call `n` of `f`: a cell or register is tainted afterwards only if it was before and is not sanitized,
or the call makes it a source, or the library function moves tainted data into it.  The result is data or a new object. -/
structure Prog.ExtEffect (n f : Nat) (regs : Nat → RVal) (mem : Loc → Bool) (next : Nat) (regs' : Nat → RVal)
    (mem' : Loc → Bool) : Prop where
  cell : ∀ ℓ, mem' ℓ = true → ℓ ≠ .obj next → (mem ℓ = true ∧ ∀ v, p.SaniAt n f v → p.val regs v ≠ .ptr ℓ) ∨
    (∃ v, p.GenAt n f v ∧ v ≠ .node n ∧ p.val regs v = .ptr ℓ) ∨
    (∃ (i j : Nat) (a b : Val), p.MovesTo f i (.param j) ∧ (p.args n)[i]? = some a ∧ (p.args n)[j]? = some b ∧ p.Tainted regs mem a ∧
      p.val regs b = .ptr ℓ)
  const : ∀ g, mem' (.glob g) = true → mem (.glob g) = true ∨ p.constData g = false
  addr : ∀ k ℓ, k ≠ n → (regs' k = .ptr ℓ ↔ regs k = .ptr ℓ)
  bit : ∀ k, k ≠ n → regs' k = .sc true → (regs k = .sc true ∧ ¬ p.SaniAt n f (.node k)) ∨ p.GenAt n f (.node k)
  result : (∃ t, regs' n = .sc t) ∨ regs' n = .ptr (.obj next)
  result_hot : (regs' n = .sc true ∨ mem' (.obj next) = true) → p.GenAt n f (.node n) ∨
    ∃ (i : Nat) (a : Val), p.MovesTo f i .ret ∧ (p.args n)[i]? = some a ∧ p.Tainted regs mem a

/-- One step of an execution.  Parameters get the values of the arguments, other registers of the new activation are untainted
data; an argument that is not of pointer type holds data, an argument of pointer type an address or untainted data (null). -/
inductive Prog.CStep (deep : Bool) : CState → CState → Prop
  | normal {stk n regs mem next n' x mem' next'} : p.icf.isCall n = false → n' ∈ p.icf.succs n →
      p.Effect deep n regs mem next x mem' next' →
      Prog.CStep deep ⟨stk, n, regs, mem, next⟩ ⟨stk, n', updR regs n x, mem', next'⟩
  | call {stk n regs mem next f sp regs'} : p.icf.isCall n = true → f ∈ p.icf.callees n → ¬ p.External n f →
      sp ∈ p.icf.starts f →
      (∀ (i k : Nat) (a : Val), (p.params f)[i]? = some k → (p.args n)[i]? = some a → regs' k = p.val regs a) →
      (∀ k, k ∉ p.params f → regs' k = .sc false) →
      (∀ a ∈ p.args n, p.ptrTy a = false → ∃ t, p.val regs a = .sc t) →
      (∀ a ∈ p.args n, p.ptrTy a = true → p.val regs a ≠ .sc true) →
      Prog.CStep deep ⟨stk, n, regs, mem, next⟩ ⟨⟨n, regs, mem, next⟩ :: stk, sp, regs', mem, next⟩
  | ret {fr stk n regs mem next r} : p.icf.isCall n = false → p.icf.isExit n = true → r ∈ p.icf.retSites fr.c →
      Prog.CStep deep ⟨fr :: stk, n, regs, mem, next⟩
        ⟨stk, r, updR fr.regs fr.c (match p.retVal n with | some v => p.val regs v | none => .sc false), mem, next⟩
  | ext {stk n regs mem next f r regs' mem'} : p.icf.isCall n = true → f ∈ p.icf.callees n → p.External n f →
      r ∈ p.icf.retSites n → p.ExtEffect n f regs mem next regs' mem' →
      Prog.CStep deep ⟨stk, n, regs, mem, next⟩ ⟨stk, r, regs', mem', next + 1⟩

/-- Executions. -/
inductive Prog.CSteps (deep : Bool) : CState → CState → Prop
  | refl (s) : Prog.CSteps deep s s
  | tail {s t u} : Prog.CSteps deep s t → Prog.CStep p deep t u → Prog.CSteps deep s u

/-- Initial states: an entry point; only parameters hold anything, memory objects other than the arguments of `main` are
untainted, and the parameters of `main` are tainted only with the option `TaintMainArgs`. -/
structure Prog.Init (s : CState) : Prop where
  stk : s.stk = []
  entry : s.n ∈ p.entries
  regs : ∀ k, k ∉ p.params (p.icf.funOf s.n) → s.regs k = .sc false
  old : ∀ k i, s.regs k = .ptr (.obj i) → i < s.next
  glob : ∀ k g, s.regs k = .ptr (.glob g) → p.isConst g = true
  params : ∀ k, p.isConst k = false → Hot s.mem (s.regs k) → p.taintMain = true ∧ s.n ∈ p.mainStarts
  globals : ∀ g, s.mem (.glob g) = false

/-- States of executions. -/
def Prog.Reached (deep : Bool) (t : CState) : Prop := ∃ s, p.Init s ∧ p.CSteps deep s t

/-- A leak: at a call, an argument that is a sink there is tainted. -/
def Prog.Leak (t : CState) (v : Val) : Prop :=
  p.icf.isCall t.n = true ∧ v ∈ p.args t.n ∧ p.Tainted t.regs t.mem v ∧ ∃ f ∈ p.icf.callees t.n, p.SinkAt t.n f v

/-! ## Programs for which the analysis misses nothing -/

/-- Operands of a statement. -/
def Prog.operands (n : Nat) : List Val := match p.inst n with
  | .alloca => []
  | .store v ptr => [v, ptr]
  | .load v => [v]
  | .gep v => [v]
  | .extract v => [v]
  | .insert a v => [a, v]
  | .cast v => [v]
  | .op ops => ops
  | .call as => as
  | .ret v => v.toList

/-- The instruction `k` is at or after the statement `n` in the same basic block, so its register gets a new value before it is
used. -/
def Prog.Pending (n k : Nat) : Prop :=
  p.isInst k = true ∧ p.isConst k = false ∧ p.block k = p.block n ∧ (k = n ∨ p.before n k = true)

/-- Operand `k` of the load, address computation, extraction, insertion or store `n` has no other use. -/
def Prog.LastUse (n k : Nat) : Prop :=
  p.uses2 k = false ∧ ((∃ ptr, p.inst n = .store (.node k) ptr) ∨ p.inst n = .load (.node k) ∨ p.inst n = .gep (.node k) ∨
    p.inst n = .extract (.node k) ∨ (∃ v, p.inst n = .insert (.node k) v) ∨ ∃ a, p.inst n = .insert a (.node k))

/-- Well-formed programs. -/
structure Prog.WF : Prop where
  icf : p.icf.WFV
  seeds : ∀ sp ∈ p.entries, sp ∈ p.icf.starts (p.icf.funOf sp)
  stmt : ∀ n, (p.icf.isCall n = true ∨ p.icf.isExit n = true ∨ p.icf.succs n ≠ []) → p.isInst n = true ∧ p.isConst n = false
  isCall : ∀ n, p.icf.isCall n = true ↔ ∃ as, p.inst n = .call as
  exitRet : ∀ n, p.icf.isExit n = true → ∃ v, p.inst n = .ret v
  params : ∀ f k, k ∈ p.params f → p.isInst k = false ∧ p.isConst k = false ∧ p.argOf k = some f
  nodup : ∀ f, (p.params f).Nodup
  globals : ∀ k, p.isConst k = true → p.isInst k = false ∧ p.argOf k = none
  constData : ∀ k, p.constData k = true → p.isConst k = true
  operand : ∀ n, Val.zero ∉ p.operands n
  defined : ∀ n k, .node k ∈ p.operands n → ¬ p.Pending n k
  order : ∀ n k n', p.isInst k = true → p.block k = p.block n → p.before n k = true →
    n' ∈ p.icf.succs n ∨ n' ∈ p.icf.retSites n → p.block k = p.block n' ∧ (k = n' ∨ p.before n' k = true)
  uses : ∀ n n' k, p.uses2 k = false → .node k ∈ p.operands n → .node k ∈ p.operands n' → n = n'

/-- Well-formed calls; the call has a return site (it is not the last statement of its function, as an invoke whose successors
the graph does not know would be). -/
structure Prog.WFCalls : Prop where
  ret : ∀ n, p.icf.isCall n = true → p.icf.retSites n ≠ []
  arity : ∀ n f, f ∈ p.icf.callees n → p.isDecl f = false → (p.args n).length = (p.params f).length
  types : ∀ (n f i k : Nat) (a : Val), f ∈ p.icf.callees n → p.isDecl f = false → (p.params f)[i]? = some k → (p.args n)[i]? = some a →
    p.ptrTy a = p.isPtr k

/-- The restrictions under which the analysis finds every leak; each is needed (see `Verif/Analysis/TaintProps.lean`). -/
structure Prog.Fit : Prop where
  /-- No function or call returns a structure through a pointer parameter. -/
  sret : ∀ n, p.sretCS n = false ∧ ∀ f ∈ p.icf.callees n, p.sret f = false
  /-- Pointer parameters and globals are never used up by their only use. -/
  lastUse : ∀ n k, p.LastUse n k → p.isConst k = false ∧ ∀ f, k ∈ p.params f → p.isPtr k = false
  /-- Library functions with a summary are not sources, sinks or sanitizers. -/
  library : ∀ n f v, p.icf.isCall n = true → f ∈ p.icf.callees n → p.swift f = true ∨ p.fdff f ≠ none →
    ¬ p.GenAt n f v ∧ ¬ p.SinkAt n f v ∧ ¬ p.SaniAt n f v
  /-- The Swift function has no other summary. -/
  swift : ∀ f, p.swift f = true → p.fdff f = none

/-- The alias information is sound for the executions: registers or globals that hold the same address are reported as
aliases, except for those about to be overwritten. -/
def Prog.AliasSound (deep : Bool) : Prop :=
  ∀ t, p.Reached deep t → ∀ k1 k2 ℓ, p.val t.regs (.node k1) = .ptr ℓ → p.val t.regs (.node k2) = .ptr ℓ → k1 ≠ k2 →
    ¬ p.Pending t.n k2 → .node k2 ∈ p.aliases (.node k1)

/-- Where a library function moves data into a parameter, the argument is the only register with that address. -/
def Prog.MovesUnaliased (deep : Bool) : Prop :=
  ∀ t, p.Reached deep t → ∀ f ∈ p.icf.callees t.n, ∀ (i j : Nat) (b : Val) (ℓ : Loc), p.MovesTo f i (.param j) → (p.args t.n)[j]? = some b →
    p.val t.regs b = .ptr ℓ → ∀ k, p.val t.regs (.node k) = .ptr ℓ → ¬ p.Pending t.n k → .node k = b

end Phasar.Taint
