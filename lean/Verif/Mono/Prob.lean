import Verif.Mono.Intra
import Verif.Base.FSet
import Verif.EdgeFn.Domain
/-!
# Model of the intraprocedural analyses of the monotone framework

Models `lib/PhasarLLVM/DataFlow/Mono/Problems/IntraMonoUninitVariables.cpp` and
`IntraMonoFullConstantPropagation.cpp` as inputs (`IProb`) of the solver modelled in `Verif.Mono.Intra`.

Instructions and values are numbered; the value an instruction computes carries the number of the
instruction.  An instruction keeps what the two flow functions look at.
-/
namespace Phasar.MonoProb
open IntraMono

/-- Operands of stores and binary operators, as far as the flow functions tell them apart:
`ConstantInt` (`IntraMonoFullConstantPropagation.cpp:106`, `:151`, with `getSExtValue`), the integer typed
`ConstantData` that is not a `ConstantInt`, that is `undef` or `poison`
(`IntraMonoUninitVariables.cpp:66-67`), and everything else. -/
inductive Opd where
  | lit (c : BitVec 64)
  | undef
  | val (k : Nat)
deriving DecidableEq

/-- The opcodes `executeBinOperation` names, `IntraMonoFullConstantPropagation.cpp:194-223`. -/
inductive BinOp where
  | add | sub | mul | udiv | sdiv | urem | srem | other
deriving DecidableEq

/-- Instructions, as far as the flow functions look at them
(`IntraMonoUninitVariables.cpp:62-73`, `IntraMonoFullConstantPropagation.cpp:96-183`).  `isInt` of an alloca
is `getAllocatedType()->isIntegerTy()`, of a store `getValueOperand()->getType()->isIntegerTy()`. -/
inductive Inst where
  | alloca (isInt : Bool)
  | store (v : Opd) (isInt : Bool) (ptr : Nat)
  | load (ptr : Nat)
  | bin (op : BinOp) (l r : Opd)
  | other
deriving DecidableEq

/-- The analysed functions: their control-flow graph as the CFG interface reports it
(`IntraMonoSolver.h:50-97`), their instructions, and `getStartPointsOf` of the entry points
(`IntraMonoUninitVariables.cpp:85`, `IntraMonoFullConstantPropagation.cpp:80`). -/
structure Func where
  funs : List (List Nat × List (Nat × Nat))
  succs : Nat → List Nat
  preds : Nat → List Nat
  branchTarget : Nat → Nat → Bool
  starts : List Nat
  inst : Nat → Inst

/-! ## Uninitialized variables -/

/-- `merge`, `IntraMonoUninitVariables.cpp:39-46`: `std::set_intersection`. -/
def inter (a b : List Nat) : List Nat := a.filter (fun x => x ∈ b)

/-- `equal_to`, `IntraMonoUninitVariables.cpp:48-52`: equality of sets.  The model keeps sets as lists in
some order. -/
def sameSet (a b : List Nat) : Bool := a.all (fun x => x ∈ b) && b.all (fun x => x ∈ a)

/-- The test of `IntraMonoUninitVariables.cpp:66-67` for the value operand of a store. -/
def constData : Opd → Bool → Bool
  | .lit _, isInt => isInt
  | .undef, isInt => isInt
  | .val _, _ => false

/-- `normalFlow`, `IntraMonoUninitVariables.cpp:58-75`; the output written on a store is left out. -/
def uninitFlow (F : Func) (n : Nat) (inp : List Nat) : List Nat :=
  match F.inst n with
  | .alloca _ => FSet.insert inp n
  | .store v isInt ptr => if constData v isInt then inp.filter (fun x => x ≠ ptr) else inp
  | _ => inp

/-- `IntraMonoUninitVariables` as an input of the solver: `allTop` (`IntraMonoUninitVariables.cpp:54-56`) and
`initialSeeds` (`:77-91`) give the empty set.  `Seeds[I] =` writes each key once. -/
def uninitProb (F : Func) : IProb Nat (List Nat) where
  funs := F.funs
  succs := F.succs
  preds := F.preds
  branchTarget := F.branchTarget
  flow := uninitFlow F
  merge := inter
  equalTo := sameSet
  allTop := []
  dflt := []
  ins := FSet.insertAll
  seeds := (FSet.ofList F.starts).map (fun n => (n, []))

/-! ## Constant propagation -/

/-- `LatticeDomain<plain_d_t>` with `plain_d_t = int64_t`, `IntraMonoFullConstantPropagation.h:54-57`. -/
abbrev V := LatticeDomain (BitVec 64)

/-- `std::map<const llvm::Value *, LatticeDomain<plain_d_t>>`, `IntraMonoFullConstantPropagation.h:58-59`: a
map with one entry per key; the order of the keys plays no role. -/
structure CMap where
  m : AMap Nat V
  nd : AMap.NodupKeys m

namespace CMap

/-- The empty map, `IntraMonoFullConstantPropagation.cpp:82`. -/
def empty : CMap := ⟨[], AMap.nodupKeys_nil⟩

/-- `find`, `IntraMonoFullConstantPropagation.cpp:58`. -/
def get (a : CMap) (k : Nat) : Option V := a.m.get k

/-- `Out[k] = v`, `IntraMonoFullConstantPropagation.cpp:110`. -/
def set (a : CMap) (k : Nat) (v : V) : CMap := ⟨a.m.set k v, AMap.nodupKeys_set a.nd k v⟩

/-- `Out.insert({k, v})`, `IntraMonoFullConstantPropagation.cpp:98`: does not overwrite. -/
def insert (a : CMap) (k : Nat) (v : V) : CMap :=
  match a.get k with
  | some _ => a
  | none => a.set k v

/-- `merge`, `IntraMonoFullConstantPropagation.cpp:52-64`: the entries both maps have. -/
def merge (a b : CMap) : CMap :=
  ⟨a.m.filter (fun x => b.get x.1 = some x.2),
    List.Nodup.sublist (List.Sublist.map _ List.filter_sublist) a.nd⟩

/-- `equal_to`, `IntraMonoFullConstantPropagation.cpp:66-70`: `std::map`'s comparison. -/
def same (a b : CMap) : Bool :=
  a.m.all (fun x => b.get x.1 = some x.2) && b.m.all (fun x => a.get x.1 = some x.2)

/-- `insert(first, last)` on the container, `IntraMonoSolver.h:64`. -/
def insertAll (a b : CMap) : CMap := b.m.foldl (fun a x => a.insert x.1 x.2) a

end CMap

/-- The operand's value, `IntraMonoFullConstantPropagation.cpp:150-168`: the literal, the entry of the map, or
the default constructed lattice value, which is `Top` (`LatticeDomain.h:65`). -/
def opdVal (inp : CMap) : Opd → V
  | .lit c => .val c
  | .undef => .top
  | .val k => match inp.get k with | some v => v | none => .top

/-- `executeBinOperation`, `IntraMonoFullConstantPropagation.cpp:188-225`.  Signed overflow, which is undefined
in C++, wraps in the model. -/
def execBin : BinOp → BitVec 64 → BitVec 64 → V
  | .add, a, b => .val (a + b)
  | .sub, a, b => .val (a - b)
  | .mul, a, b => .val (a * b)
  | .udiv, a, b => if b ≠ 0 then .val (a.sdiv b) else .bottom
  | .sdiv, a, b => if b ≠ 0 then .val (a.sdiv b) else .bottom
  | .urem, a, b => if b ≠ 0 then .val (a.srem b) else .bottom
  | .srem, a, b => if b ≠ 0 then .val (a.srem b) else .bottom
  | .other, _, _ => .bottom

/-- `In.find(ptr)` finds an entry that is not `Bottom`, `IntraMonoFullConstantPropagation.cpp:107-109`,
`:124-126`. -/
def writable (inp : CMap) (ptr : Nat) : Bool :=
  match inp.get ptr with
  | some .bottom => false
  | some _ => true
  | none => false

/-- The store part of `normalFlow`, `IntraMonoFullConstantPropagation.cpp:103-132`.  A `ConstantInt` that case
I does not store is not a key of the map, so case II does not store it either. -/
def storeFlow (inp : CMap) (v : Opd) (isInt : Bool) (ptr : Nat) : CMap :=
  match v with
  | .lit c => if writable inp ptr then inp.set ptr (.val c) else inp
  | v =>
    if isInt then
      match opdVal inp v with
      | .top => inp
      | x => if writable inp ptr then inp.set ptr x else inp
    else inp

/-- The part of `normalFlow` for binary operators, `IntraMonoFullConstantPropagation.cpp:144-183`. -/
def binFlow (inp : CMap) (n : Nat) (op : BinOp) (l r : Opd) : CMap :=
  match opdVal inp l, opdVal inp r with
  | .val a, .val b => inp.set n (execBin op a b)
  | _, _ => inp.set n .bottom

/-- `normalFlow`, `IntraMonoFullConstantPropagation.cpp:89-186`. -/
def constFlow (F : Func) (n : Nat) (inp : CMap) : CMap :=
  match F.inst n with
  | .alloca isInt => if isInt then inp.insert n .top else inp
  | .store v isInt ptr => storeFlow inp v isInt ptr
  | .load ptr => match inp.get ptr with | some v => inp.set n v | none => inp
  | .bin op l r => binFlow inp n op l r
  | .other => inp

/-- `IntraMonoFullConstantPropagation` as an input of the solver: `allTop`
(`IntraMonoProblem.h:82`, not overridden) and `initialSeeds` (`IntraMonoFullConstantPropagation.cpp:72-87`) give
the empty map. -/
def constProb (F : Func) : IProb Nat CMap where
  funs := F.funs
  succs := F.succs
  preds := F.preds
  branchTarget := F.branchTarget
  flow := constFlow F
  merge := CMap.merge
  equalTo := CMap.same
  allTop := .empty
  dflt := .empty
  ins := CMap.insertAll
  seeds := (FSet.ofList F.starts).map (fun n => (n, .empty))

/-! ## Specification: uninitialized variables -/

/-- Specification: the control-flow edges of the functions. -/
def Func.Edge (F : Func) (s d : Nat) : Prop := ∃ f ∈ F.funs, (s, d) ∈ f.2

/-- Specification: the statements of the functions. -/
def Func.Node (F : Func) (n : Nat) : Prop := ∃ f ∈ F.funs, n ∈ f.1

/-- Specification: a path along the edges from a statement without predecessors, latest statement first. -/
inductive Func.Path (F : Func) : List Nat → Prop where
  | start {n} (hn : F.Node n) (h : ¬ ∃ p, F.Edge p n) : Path F [n]
  | next {n m rest} (h : Path F (m :: rest)) (e : F.Edge m n) : Path F (n :: m :: rest)

/-- Specification: statement `n` allocates the variable `v`. -/
def Func.Allocates (F : Func) (n v : Nat) : Prop := n = v ∧ ∃ b, F.inst n = .alloca b

/-- Specification: statement `n` stores to the variable `v`. -/
def Func.Stores (F : Func) (n v : Nat) : Prop := ∃ x b, F.inst n = .store x b v

/-- Specification: statement `n` stores an integer constant to the variable `v`. -/
def Func.StoresConst (F : Func) (n v : Nat) : Prop := ∃ x, F.inst n = .store x true v ∧ ∀ k, x ≠ .val k

/-- Specification: along the path `v` is allocated and no statement after its last allocation is one of
`kills`. -/
inductive Func.Open (F : Func) (kills : Nat → Prop) (v : Nat) : List Nat → Prop where
  | alloc {n rest} (h : F.Allocates n v) : Open F kills v (n :: rest)
  | keep {n rest} (h : ¬ kills n) (r : Open F kills v rest) : Open F kills v (n :: rest)

/-- Specification: what can be derived, in finitely many steps, about the variables that are open after a
statement: the statement allocates the variable, or it does not store a constant to it and the statement has
predecessors, after all of which the variable is open. -/
inductive Func.After (F : Func) (v : Nat) : Nat → Prop where
  | alloc {n} (h : F.Allocates n v) : After F v n
  | keep {n} (h : ¬ F.StoresConst n v) (e : ∃ p, F.Edge p n) (r : ∀ p, F.Edge p n → After F v p) : After F v n

/-! ## Specification: constant propagation -/

/-- Specification: registers and memory of a run.  Integers are kept sign extended to 64 bits. -/
structure State where
  reg : Nat → BitVec 64
  mem : Nat → BitVec 64

/-- Specification: what the flow function does not look at: the address a pointer operand holds, the width of
the type of a binary operator, the addresses an instruction that is not modelled (such as a call) may write. -/
structure Env where
  addr : Nat → Nat
  width : Nat → Nat
  writes : Nat → List Nat

/-- Specification: an integer of `w` bits, sign extended. -/
def norm (w : Nat) (x : BitVec 64) : BitVec 64 := (x.setWidth w).signExtend 64

/-- Specification: the operand can have the value `c`. -/
def OpdIs (s : State) : Opd → BitVec 64 → Prop
  | .lit x, c => c = x
  | .undef, _ => True
  | .val k, c => c = s.reg k

/-- Specification: the integer operators of LLVM at width `w`, on sign extended integers.  A division by zero
has no result. -/
def BinIs : BinOp → Nat → BitVec 64 → BitVec 64 → BitVec 64 → Prop
  | .add, w, a, b, c => c = norm w (a + b)
  | .sub, w, a, b, c => c = norm w (a - b)
  | .mul, w, a, b, c => c = norm w (a * b)
  | .udiv, w, a, b, c => b.setWidth w ≠ 0 ∧ c = ((a.setWidth w).udiv (b.setWidth w)).signExtend 64
  | .sdiv, w, a, b, c => b.setWidth w ≠ 0 ∧ c = ((a.setWidth w).sdiv (b.setWidth w)).signExtend 64
  | .urem, w, a, b, c => b.setWidth w ≠ 0 ∧ c = ((a.setWidth w).umod (b.setWidth w)).signExtend 64
  | .srem, w, a, b, c => b.setWidth w ≠ 0 ∧ c = ((a.setWidth w).srem (b.setWidth w)).signExtend 64
  | .other, _, _, _, _ => True

/-- Specification: one statement executed. -/
inductive Step (F : Func) (E : Env) (n : Nat) (s t : State) : Prop where
  | alloca (b) (h : F.inst n = .alloca b) (hr : t.reg = s.reg) (hm : ∀ a, a ≠ E.addr n → t.mem a = s.mem a)
  | store (v ptr) (h : F.inst n = .store v true ptr) (hr : t.reg = s.reg) (hv : OpdIs s v (t.mem (E.addr ptr)))
      (hm : ∀ a, a ≠ E.addr ptr → t.mem a = s.mem a)
  | blur (v ptr) (h : F.inst n = .store v false ptr) (hr : t.reg = s.reg)
      (hm : ∀ a, a ≠ E.addr ptr → t.mem a = s.mem a)
  | load (ptr) (h : F.inst n = .load ptr) (hn : t.reg n = s.mem (E.addr ptr))
      (hr : ∀ k, k ≠ n → t.reg k = s.reg k) (hm : t.mem = s.mem)
  | bin (op l r a b) (h : F.inst n = .bin op l r) (hl : OpdIs s l a) (hr : OpdIs s r b)
      (hn : BinIs op (E.width n) a b (t.reg n)) (hk : ∀ k, k ≠ n → t.reg k = s.reg k) (hm : t.mem = s.mem)
  | other (h : F.inst n = .other) (hr : ∀ k, k ≠ n → t.reg k = s.reg k)
      (hm : ∀ a, a ∉ E.writes n → t.mem a = s.mem a)

/-- Specification: runs, as the statements executed (latest first) and the state reached; `ok` restricts the
states in which statements are executed. -/
inductive Run (F : Func) (E : Env) (ok : Nat → State → Prop) : List Nat → State → Prop where
  | start {n s t} (hn : n ∈ F.starts) (ho : ok n s) (h : Step F E n s t) : Run F E ok [n] t
  | next {n m rest s t} (r : Run F E ok (m :: rest) s) (e : F.Edge m n) (ho : ok n s) (h : Step F E n s t) :
      Run F E ok (n :: m :: rest) t

/-- Specification: the state has the value `c` for the key `k`: the contents of the variable if `k` is an
alloca, the register otherwise. -/
def Holds (F : Func) (E : Env) (s : State) (k : Nat) (c : BitVec 64) : Prop :=
  match F.inst k with
  | .alloca _ => s.mem (E.addr k) = c
  | _ => s.reg k = c

/-- Specification: an integer lies in the signed range of `w` bits. -/
def Fits (w : Nat) (x : Int) : Prop := -(2 ^ (w - 1) : Int) ≤ x ∧ x < 2 ^ (w - 1)

/-- Specification: the exact result of a signed operator. -/
def exact : BinOp → Int → Int → Option Int
  | .add, a, b => some (a + b)
  | .sub, a, b => some (a - b)
  | .mul, a, b => some (a * b)
  | .sdiv, a, b => some (a.tdiv b)
  | .srem, a, b => some (a.tmod b)
  | _, _, _ => none

/-- Specification: executing `n` in `s` does no arithmetic, or does signed arithmetic on integers of at most
64 bits whose exact result fits the width of the operator. -/
def InRange (F : Func) (E : Env) (n : Nat) (s : State) : Prop :=
  ∀ op l r, F.inst n = .bin op l r → op = .other ∨ (0 < E.width n ∧ E.width n ≤ 64 ∧
    ∀ a b, OpdIs s l a → OpdIs s r b → Fits (E.width n) a.toInt ∧ Fits (E.width n) b.toInt ∧
      ∃ x, exact op a.toInt b.toInt = some x ∧ Fits (E.width n) x)

/-- Specification: the types the LLVM verifier gives values, as far as needed. -/
inductive Ty where
  | int | ptr | other
deriving DecidableEq

/-- Specification: operands have the types their instructions ask for, and an integer variable is read as an
integer. -/
structure Typed (F : Func) (ty : Nat → Ty) : Prop where
  alloca : ∀ n b, F.inst n = .alloca b → ty n = .ptr
  store : ∀ n v b ptr, F.inst n = .store v b ptr → ty ptr = .ptr ∧ ∀ k, v = .val k → (b = true ↔ ty k = .int)
  load : ∀ n ptr, F.inst n = .load ptr → ty ptr = .ptr ∧ (F.inst ptr = .alloca true → ty n = .int)
  bin : ∀ n op l r, F.inst n = .bin op l r → ty n ≠ .ptr ∧ ∀ k, l = .val k ∨ r = .val k → ty k ≠ .ptr

/-- Specification: integer variables are only written through their allocas: no other pointer that is stored
through holds the address of one, and nothing else writes them. -/
structure Unaliased (F : Func) (E : Env) : Prop where
  alloca : ∀ n b a, F.inst n = .alloca b → F.inst a = .alloca true → E.addr n = E.addr a → n = a
  store : ∀ n v b ptr a, F.inst n = .store v b ptr → F.inst a = .alloca true → E.addr ptr = E.addr a → ptr = a
  writes : ∀ n a, F.inst a = .alloca true → E.addr a ∉ E.writes n

/-- Specification: what is stored to a tracked variable is an integer the results know about: a literal, or a
value that has an entry other than `Top`. -/
def Known (F : Func) (res : Nat → CMap) : Prop :=
  ∀ n v b ptr, F.inst n = .store v b ptr → (res n).get ptr ≠ none →
    b = true ∧ ((∃ c, v = .lit c) ∨ ∃ k x, v = .val k ∧ (res n).get k = some x ∧ x ≠ .top)

end Phasar.MonoProb
