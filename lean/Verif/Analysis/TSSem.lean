import Verif.Analysis.TSFlow
/-!
# Specification for the typestate analysis: what programs do with objects of the type

Objects are numbered in the order of their creation.  An object is created by a factory function, and by an `alloca` of matching
type: the variable then holds an indeterminate pointer, whose (imaginary) object is in the uninitialized state.  Every object is in
a state of the automaton, which the consuming functions change.  Variables and memory locations are accessed by their name only
(there are no pointers to them), global variables hold no objects, and external functions do not keep objects.
-/
namespace Phasar.TypeState
open Phasar IDE

/-- A state of the program: pending calls with the variables of the caller, next statement, the objects that the local variables
and memory locations point to (if they are known to the analysis), the states of the objects, number of objects. -/
structure CState (S : Type) where
  stk : List (Nat × (Nat → Option Nat))
  n : Nat
  loc : Nat → Option Nat
  st : Nat → S
  next : Nat

/-- Function update. -/
def upd {X : Type} (f : Nat → X) (k : Nat) (x : X) : Nat → X := fun j => if j = k then x else f j

namespace Prog
variable {S : Type} [DecidableEq S] (p : Prog S)

/-- `keep n k`: the variable `k` still matters at statement `n`; what the others point to is forgotten when `n` is reached.  The
theorems hold for every choice. -/
def forget (keep : Nat → Nat → Bool) (n : Nat) (loc : Nat → Option Nat) : Nat → Option Nat :=
  fun k => if keep n k then loc k else none

/-- The parameters of the called function point to the objects of the arguments. -/
def bind (f : Nat) (as : List Nat) (loc : Nat → Option Nat) : Nat → Option Nat :=
  fun k => ((p.params f).idxOf? k).bind fun i => as[i]?.bind loc

/-- Executing the statement `n`, which is no call, changes variables, states and the number of objects in this way. -/
inductive Effect (n : Nat) (loc : Nat → Option Nat) (st : Nat → S) (nx : Nat) : (Nat → Option Nat) → (Nat → S) → Nat → Prop
  | alloca (t : Ty) : p.inst n = .alloca t → p.matching n = true →
      Effect n loc st nx (upd loc n (some nx)) (upd st nx p.desc.uninit) (nx + 1)
  | load (k : Nat) : p.inst n = .load k → p.matching n = true → Effect n loc st nx (upd loc n (loc k)) st nx
  | store (v k : Nat) : p.inst n = .store v k → p.matching n = true → Effect n loc st nx (upd loc k (loc v)) st nx
  | storeOther (v k : Nat) : p.inst n = .store v k → p.matching n = false → Effect n loc st nx (upd loc k none) st nx
  | other : (∀ v k, p.inst n ≠ .store v k) → ((∃ t, p.inst n = .alloca t) ∨ (∃ k, p.inst n = .load k) → p.matching n = false) →
      Effect n loc st nx (upd loc n none) st nx

/-- One step of the program. -/
inductive CStep (keep : Nat → Nat → Bool) : CState S → CState S → Prop
  /-- A statement other than a call. -/
  | normal {stk n loc st nx n' loc' st' nx'} : p.icf.isCall n = false → n' ∈ p.icf.succs n →
      p.Effect n loc st nx loc' st' nx' → CStep keep ⟨stk, n, loc, st, nx⟩ ⟨stk, n', forget keep n' loc', st', nx'⟩
  /-- Call of a function with a body that is not part of the API. -/
  | call {stk n loc st nx as f sp} : p.icf.isCall n = true → p.inst n = .call as → f ∈ p.icf.callees n →
      p.isAPI (p.name f) = false → p.isDecl f = false → sp ∈ p.icf.starts f →
      CStep keep ⟨stk, n, loc, st, nx⟩ ⟨(n, loc) :: stk, sp, forget keep sp (p.bind f as loc), st, nx⟩
  /-- Return: the call gets the returned value. -/
  | ret {stk c locc n loc st nx r v} : p.icf.isCall n = false → p.icf.isExit n = true → p.inst n = .ret v →
      r ∈ p.icf.retSites c →
      CStep keep ⟨(c, locc) :: stk, n, loc, st, nx⟩ ⟨stk, r, forget keep r (upd locc c (v.bind loc)), st, nx⟩
  /-- Call of a factory function: a new object. -/
  | factory {stk n loc st nx as f r s'} : p.icf.isCall n = true → p.inst n = .call as → p.icf.callees n = [f] →
      p.desc.isFactory (p.name f) = true → p.desc.next (p.name f) p.desc.uninit n = some s' → r ∈ p.icf.retSites n →
      CStep keep ⟨stk, n, loc, st, nx⟩ ⟨stk, r, forget keep r (upd loc n (some nx)), upd st nx s', nx + 1⟩
  /-- Call of a consuming function: the state of the object it gets changes. -/
  | consume {stk n loc st nx as f r i a o s'} : p.icf.isCall n = true → p.inst n = .call as → p.icf.callees n = [f] →
      p.isDecl f = true → p.desc.isFactory (p.name f) = false → p.desc.isConsuming (p.name f) = true →
      p.desc.consumerParamIdx (p.name f) = [i] → as[i]? = some a → loc a = some o →
      p.desc.next (p.name f) (st o) n = some s' → r ∈ p.icf.retSites n →
      CStep keep ⟨stk, n, loc, st, nx⟩ ⟨stk, r, forget keep r (upd loc n none), upd st o s', nx⟩
  /-- Call of a consuming function with an object that is not known. -/
  | consumeOther {stk n loc st nx as f r i a} : p.icf.isCall n = true → p.inst n = .call as → p.icf.callees n = [f] →
      p.isDecl f = true → p.desc.isFactory (p.name f) = false → p.desc.isConsuming (p.name f) = true →
      p.desc.consumerParamIdx (p.name f) = [i] → as[i]? = some a → loc a = none → r ∈ p.icf.retSites n →
      CStep keep ⟨stk, n, loc, st, nx⟩ ⟨stk, r, forget keep r (upd loc n none), st, nx⟩
  /-- Call of an external function that is not part of the API. -/
  | extern {stk n loc st nx as r} : p.icf.isCall n = true → p.inst n = .call as → p.icf.callees n ≠ [] →
      (∀ f ∈ p.icf.callees n, p.isDecl f = true ∧ p.desc.isFactory (p.name f) = false ∧
        p.desc.isConsuming (p.name f) = false) → r ∈ p.icf.retSites n →
      CStep keep ⟨stk, n, loc, st, nx⟩ ⟨stk, r, forget keep r (upd loc n none), st, nx⟩

/-- Zero or more steps. -/
inductive CSteps (keep : Nat → Nat → Bool) : CState S → CState S → Prop
  | refl (s : CState S) : CSteps keep s s
  | tail {a b c : CState S} : CSteps keep a b → p.CStep keep b c → CSteps keep a c

/-- Initial states: an entry point, there are no objects. -/
def Init (s : CState S) : Prop := s.stk = [] ∧ s.n ∈ p.entries ∧ (∀ k, s.loc k = none) ∧ s.next = 0

/-- The program can get to the state. -/
def Reached (keep : Nat → Nat → Bool) (t : CState S) : Prop := ∃ s, p.Init s ∧ p.CSteps keep s t

/-- What is required of the program: parameters are different from each other, are no statements, and nothing is stored through
them; no `sret` parameters; functions with variable arguments have a `va_list`; calls have the right number of arguments; factory and
consuming functions belong to the API and are not called together with other functions; stores are users of their pointer operand,
which aliases itself and is not a loaded pointer; entry points are start points. -/
structure WF : Prop where
  icf : p.icf.WFV
  params : ∀ f, (p.params f).Nodup
  sret : ∀ f, p.sret f = false
  paramStmt : ∀ n, n ∉ p.params (p.icf.funOf n)
  paramStore : ∀ n v k, p.inst n = .store v k → k ∉ p.params (p.icf.funOf n)
  varArg : ∀ f, p.isVarArg f = true → p.isDecl f = false → p.vaLists f ≠ []
  arity : ∀ n as, p.inst n = .call as → ∀ f ∈ p.icf.callees n, p.isAPI (p.name f) = false → p.isDecl f = false →
    as.length = (p.params f).length
  api : ∀ s, p.desc.isFactory s = true ∨ p.desc.isConsuming s = true → p.isAPI s = true
  alone : ∀ n, ∀ f ∈ p.icf.callees n, p.isAPI (p.name f) = true → p.icf.callees n = [f]
  loadSelf : ∀ n, p.inst n ≠ .load n
  storeSelf : ∀ n v, p.inst n ≠ .store v v
  stored : ∀ n v k, p.inst n = .store v k → p.matching n = true → k ∈ p.alias k ∧ n ∈ p.users k ∧ ∀ q, p.inst k ≠ .load q
  entries : ∀ sp ∈ p.entries, sp ∈ p.icf.starts (p.icf.funOf sp)

/-- What is required of the variables that are kept: parameters are, globals are not. -/
structure Keeps (keep : Nat → Nat → Bool) : Prop where
  params : ∀ n, ∀ k ∈ p.params (p.icf.funOf n), keep n k = true
  globals : ∀ n k, p.isGlobal k = true → keep n k = false

/-- The argument `a` of the call points to the object `o`. -/
def Passes (n : Nat) (loc : Nat → Option Nat) (o a : Nat) : Prop := a ∈ p.args n ∧ loc a = some o

/-- The alias information fits the program: in every reachable state at a call, (1) if the function is a consuming one, then the
kept variables among the aliases and relevant allocas of the consumed argument are those which point to the same object; (2) if the
function has a body, then the kept variables that point to an object which is passed are an argument or a relevant alloca of an
argument with this object, and those that are killed because they are aliases or relevant allocas of an argument point to an
object that is passed. -/
structure AliasOk (keep : Nat → Nat → Bool) : Prop where
  consume : ∀ t, p.Reached keep t → ∀ f i a, p.icf.callees t.n = [f] → p.desc.isConsuming (p.name f) = true →
    p.desc.consumerParamIdx (p.name f) = [i] → (p.args t.n)[i]? = some a → ∀ r ∈ p.icf.retSites t.n, ∀ k o, k ≠ t.n →
    keep r k = true → t.loc k = some o → (k ∈ p.aliasesAndAllocas a ↔ t.loc a = some o)
  passed : ∀ t, p.Reached keep t → ∀ f ∈ p.icf.callees t.n, p.isAPI (p.name f) = false → p.isDecl f = false →
    ∀ r ∈ p.icf.retSites t.n, ∀ k o, k ≠ t.n → keep r k = true → t.loc k = some o → (∃ a, p.Passes t.n t.loc o a) →
    ∃ a, p.Passes t.n t.loc o a ∧ (k = a ∨ k ∈ p.relAllocas a)
  killed : ∀ t, p.Reached keep t → ∀ f ∈ p.icf.callees t.n, p.isAPI (p.name f) = false → p.isDecl f = false →
    ∀ r ∈ p.icf.retSites t.n, ∀ k o a, k ≠ t.n → keep r k = true → t.loc k = some o → a ∈ p.args t.n → p.matching a = true →
    k ∈ p.aliasesAndAllocas a → ∃ b, p.Passes t.n t.loc o b

/-- The type state description fits the analysis: the automaton is defined for the calls that occur, does not go to the top state,
consuming functions leave the bottom state ("any state") alone, and no function is both a factory and consuming. -/
structure Regular (D : Desc S) : Prop where
  consuming : ∀ tok s cs, D.isConsuming tok = true → s ≠ D.top → ∃ s', D.next tok s cs = some s'
  factory : ∀ tok cs, D.isFactory tok = true → ∃ s', D.next tok D.uninit cs = some s'
  noTop : ∀ tok s cs, D.next tok s cs ≠ some D.top
  bottom : ∀ tok cs, D.isConsuming tok = true → D.next tok D.bottom cs = some D.bottom
  disjoint : ∀ tok, D.isFactory tok = true → D.isConsuming tok = false
  uninit : D.uninit ≠ D.top
  distinct : D.bottom ≠ D.top

/-- The abstract state describes the concrete one: bottom ("any state") describes every state, others themselves. -/
def Describes (D : Desc S) (x s : S) : Prop := x ≠ D.top ∧ (x = s ∨ x = D.bottom)

end Prog

/-- The lattice of the solver is the one of the analysis (`IDETypeStateAnalysis.h:470-495`). -/
structure Lawful {S : Type} [DecidableEq S] [JoinLat S] (D : Desc S) : Prop where
  join : ∀ a b : S, JoinLat.join a b = D.join a b
  top : (JoinLat.top : S) = D.top
  bottom : (JoinLat.bottom : S) = D.bottom

end Phasar.TypeState
