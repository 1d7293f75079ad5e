import Verif.Path.Filter

/-!
# Model of the translation of branch conditions

Models `lib/PhasarLLVM/DataFlow/PathSensitivity/LLVMPathConstraints.cpp` with its cache, and of LLVM IR and Z3 what it uses.  Floating-point
values are left out: where the code makes real constants the model fails.
-/

namespace Phasar.PathConstr

open Phasar

/-- How a function ends: with a result, with `report_fatal_error`, a failed assertion or an exception of Z3 (`fail`), or not within the
given number of steps (`more`). -/
inductive Out (A : Type) where
  | ok (a : A)
  | fail
  | more
deriving DecidableEq

/-- Going on with the result (`LLVMPathConstraints.cpp:21-659` in sequence). -/
def Out.bind {A B : Type} : Out A → (A → Out B) → Out B
  | .ok a, f => f a
  | .fail, _ => .fail
  | .more, _ => .more

/-! ## Z3 -/

/-- The sorts of Z3 that are used (`LLVMPathConstraints.cpp:112-124, 510-536, 586-616, 641-653`). -/
inductive Srt where
  | bool | int | bv
deriving DecidableEq

/-- Arithmetic operators (`LLVMPathConstraints.cpp:417-437`). -/
inductive AOp where
  | add | sub | mul | div | rem
deriving DecidableEq

/-- Logical operators (`LLVMPathConstraints.cpp:447-455`). -/
inductive LOp where
  | and | or | xor
deriving DecidableEq

/-- Shifts (`LLVMPathConstraints.cpp:438-446`). -/
inductive SOp where
  | shl | lshr | ashr
deriving DecidableEq

/-- Relations (`LLVMPathConstraints.cpp:336-365`). -/
inductive ROp where
  | eq | ne | gt | ge | lt | le
deriving DecidableEq

/-- `z3::expr`, as far as it is built (`LLVMPathConstraints.cpp:21-659`). -/
inductive E where
  | const (s : Srt) (n : String)
  | intV (i : Int)
  | bvV (b : BitVec 64)
  | boolV (b : Bool)
  | ar (o : AOp) (a b : E)
  | lo (o : LOp) (a b : E)
  | sh (o : SOp) (a b : E)
  | rel (o : ROp) (a b : E)
  | not (a : E)
  | or (a b : E)
  | odd (a : E)
deriving DecidableEq

/-- The sort of an expression (`z3++.h`). -/
def E.sort : E → Srt
  | .const s _ => s
  | .intV _ => .int
  | .bvV _ => .bv
  | .ar _ a _ => a.sort
  | .lo _ a _ => a.sort
  | .sh _ a _ => a.sort
  | _ => .bool

/-- `+`, `-`, `*`, `/` and `z3::rem` (`LLVMPathConstraints.cpp:417-437`): for two integers or two bit vectors, `rem` for integers only
(`z3++.h`). -/
def mkAr (o : AOp) (a b : E) : Out E :=
  if a.sort = .int ∧ b.sort = .int then .ok (.ar o a b)
  else if a.sort = .bv ∧ b.sort = .bv ∧ o ≠ .rem then .ok (.ar o a b)
  else .fail

/-- `&`, `|` and `^` (`LLVMPathConstraints.cpp:447-455`): for two Booleans or two bit vectors (`z3++.h`). -/
def mkLo (o : LOp) (a b : E) : Out E :=
  if a.sort = b.sort ∧ a.sort ≠ .int then .ok (.lo o a b) else .fail

/-- `shl`, `lshr` and `ashr` (`LLVMPathConstraints.cpp:438-446`): for bit vectors (`z3++.h`). -/
def mkSh (o : SOp) (a b : E) : Out E := if a.sort = .bv ∧ b.sort = .bv then .ok (.sh o a b) else .fail

/-- Relations (`LLVMPathConstraints.cpp:336-365`): operands of the same sort, no order on Booleans (`z3++.h`). -/
def mkRel (o : ROp) (a b : E) : Out E :=
  if a.sort = b.sort ∧ (a.sort = .bool → o = .eq ∨ o = .ne) then .ok (.rel o a b) else .fail

/-- `!` (`LLVMPathConstraints.cpp:186, 196, 206`): for Booleans (`z3++.h`). -/
def mkNot (a : E) : Out E := if a.sort = .bool then .ok (.not a) else .fail

/-- `||` (`LLVMPathConstraints.cpp:131-149`): for Booleans (`z3++.h`). -/
def mkOr (a b : E) : Out E := if a.sort = .bool ∧ b.sort = .bool then .ok (.or a b) else .fail

/-- `% 2 == 1` (`LLVMPathConstraints.cpp:216`): for integers and bit vectors (`z3++.h`). -/
def mkOdd (a : E) : Out E := if a.sort = .bool then .fail else .ok (.odd a)

/-! ## LLVM IR -/

/-- An integer of LLVM (`LLVMPathConstraints.cpp:621-633`) or a pointer (64 bits). -/
structure LV where
  {w : Nat}
  bits : BitVec w

/-- Types, as far as they are distinguished (`LLVMPathConstraints.cpp:108-124, 505-536, 581-616, 640-653`).  `fp` is `float` or
`double`. -/
inductive Ty where
  | int (w : Nat) | ptr | fp | other
deriving DecidableEq

/-- Predicates of comparisons (`LLVMPathConstraints.cpp:271-369`); `fcmp` is any predicate of floating-point comparisons. -/
inductive Pred where
  | eq | ne | ugt | uge | ult | ule | sgt | sge | slt | sle | fcmp
deriving DecidableEq

/-- Binary operators on integers (`LLVMPathConstraints.cpp:416-459`). -/
inductive BOp where
  | add | sub | mul | udiv | sdiv | urem | srem | shl | lshr | ashr | and | or | xor
deriving DecidableEq

/-- Casts (`LLVMPathConstraints.cpp:211-212, 240-242, 385-387`); `bits` is any cast that keeps the bits. -/
inductive Cast where
  | sext | zext | trunc | bits
deriving DecidableEq

/-- The callee of a call (`LLVMPathConstraints.cpp:637-640`): its demangled name if it has one, the type it returns, and itself. -/
structure Callee where
  name : Option String
  ret : Ty
  id : Nat

/-- A value, as far as it is distinguished (`LLVMPathConstraints.cpp:21-659`).  Operands are numbers of values.  `constOther` is any other
`ConstantData`, `inst` any other instruction, `other` any other value. -/
inductive VK where
  | constInt (x : LV)
  | null
  | constOther
  | alloca (dbg name : Option String) (ty : Ty)
  | gep (name : Option String) (id : String) (ty : Ty) (ops : List Nat)
  | load (p : Nat)
  | cast (c : Cast) (w : Nat) (v : Nat)
  | bin (o : BOp) (l r : Nat)
  | cmp (p : Pred) (l r : Nat)
  | call (f : Option Callee) (ops : List Nat)
  | phi (ty : Ty) (ins : List Nat)
  | inst (ops : List Nat)
  | other

/-- A program: values, conditional branches (condition, target if true, target if false), the statements of blocks, the block of a
statement, debug statements. -/
structure Prog where
  kind : Nat → VK
  br : Nat → Option (Nat × Nat × Nat)
  block : Nat → List Nat
  parent : Nat → Nat
  dbg : Nat → Bool

/-! ## The translation -/

/-- `ConstraintAndVariables` (`LLVMPathConstraints.h:38-41`). -/
abbrev CAV := E × List Nat

/-- `Z3Expr` (`LLVMPathConstraints.h:93`). -/
abbrev Cache := Nat → Option CAV

/-- `Z3Expr.try_emplace(v, e).first->second` (`LLVMPathConstraints.cpp:155, 461, 511-513, 587-588`). -/
def emplace (c : Cache) (v : Nat) (e : CAV) : CAV × Cache :=
  match c v with
  | some e' => (e', c)
  | none => (e, fun u => if u = v then some e else c u)

/-- The constant for a value of a type (`LLVMPathConstraints.cpp:107-126, 505-536`).  Simplified: no real constants. -/
def constOf (n : String) : Ty → Out E
  | .int w => .ok (.const (if w = 1 then .bool else .int) n)
  | .ptr => .ok (.const .bv n)
  | _ => .fail

/-- `getVarName` (`LLVMPathConstraints.cpp:486-495`). -/
def varName (dbg name : Option String) : String :=
  match dbg with
  | some d => d
  | none => match name with
    | some n => n
    | none => ""

/-- `getAllocaInstAsZ3` (`LLVMPathConstraints.cpp:497-540`). -/
def getAlloca (P : Prog) (a : Nat) (c : Cache) : Out (CAV × Cache) :=
  match c a with
  | some e => .ok (e, c)
  | none => match P.kind a with
    | .alloca dbg name ty => (constOf (varName dbg name) ty).bind fun e => .ok (emplace c a (e, [a]))
    | _ => .fail

/-- The name of the constant for a GEP (`LLVMPathConstraints.cpp:577-578`). -/
def gepName (name : Option String) (id : String) : String := name.getD ("gep" ++ id)

/-- `getGEPInstAsZ3` (`LLVMPathConstraints.cpp:575-619`).  Simplified: no real constants, no vectors of pointers. -/
def getGEP (P : Prog) (g : Nat) (c : Cache) : Out (CAV × Cache) :=
  match P.kind g with
  | .gep name id ty _ =>
    match ty with
    | .int w => .ok (emplace c g (.const (if w = 1 then .bool else .int) (gepName name id), [g]))
    | .fp => .fail
    | _ => .ok (emplace c g (.const .bv (gepName name id), [g]))
  | _ => .fail

/-- The operands of an instruction, as appended to the worklist (`LLVMPathConstraints.cpp:568-570`). -/
def opsOf : VK → List Nat
  | .gep _ _ _ ops => ops
  | .load p => [p]
  | .cast _ _ v => [v]
  | .bin _ l r => [l, r]
  | .cmp _ l r => [l, r]
  | .call _ ops => ops
  | .phi _ ins => ins
  | .inst ops => ops
  | _ => []

/-- The loop of `getLoadInstAsZ3` (`LLVMPathConstraints.cpp:558-572`): the first alloca or GEP found.  The end of the worklist is the front
of the list; the first argument bounds the rounds. -/
def track (P : Prog) : Nat → List Nat → Out Nat
  | 0, _ => .more
  | _ + 1, [] => .fail
  | k + 1, v :: ws =>
    match P.kind v with
    | .alloca .. => .ok v
    | .gep .. => .ok v
    | x => track P k ((opsOf x).reverse ++ ws)

/-- The constant for the alloca or GEP found (`LLVMPathConstraints.cpp:562-567`). -/
def getBase (P : Prog) (v : Nat) (c : Cache) : Out (CAV × Cache) :=
  match P.kind v with
  | .alloca .. => getAlloca P v c
  | .gep .. => getGEP P v c
  | _ => .fail

/-- `getLoadInstAsZ3` (`LLVMPathConstraints.cpp:542-573`). -/
def getLoad (P : Prog) (k : Nat) (v p : Nat) (c : Cache) : Out (CAV × Cache) :=
  match c v with
  | some e => .ok (e, c)
  | none => match P.kind p with
    | .alloca .. => getAlloca P p c
    | .gep .. => getGEP P p c
    | _ => (track P k [v]).bind fun b => getBase P b c

/-- `getLiteralAsZ3` for integers (`LLVMPathConstraints.cpp:623-625`); `getSExtValue` asserts that 64 bits are enough. -/
def intLit (x : LV) : Out CAV := if (x.bits.signExtend 64).toInt = x.bits.toInt then .ok (.intV x.bits.toInt, []) else .fail

/-- `getFunctionCallAsZ3` (`LLVMPathConstraints.cpp:635-657`).  Simplified: no real constants. -/
def getCall (f : Option Callee) : Out CAV :=
  match f with
  | none => .fail
  | some f => match f.name with
    | none => .fail
    | some n => (constOf n f.ret).bind fun e => .ok (e, [f.id])

/-- The lambda `HandleOperand` behind the cast (`LLVMPathConstraints.cpp:244-263, 389-405`).  Only `handleCmpInst` accepts a GEP. -/
def operand' (P : Prog) (k : Nat) (rec : Nat → Cache → Out (CAV × Cache)) (gepOk : Bool) (v : Nat) (c : Cache) : Out (CAV × Cache) :=
  match P.kind v with
  | .constInt x => (intLit x).bind fun e => .ok (e, c)
  | .null => .ok ((.bvV 0, []), c)
  | .load p =>
    match P.kind p with
    | .alloca .. => getAlloca P p c
    | _ => getLoad P k v p c
  | .bin .. => rec v c
  | .call f _ => (getCall f).bind fun e => .ok (e, c)
  | .gep .. => if gepOk then getGEP P v c else .fail
  | _ => .fail

/-- The lambda `HandleOperand` (`LLVMPathConstraints.cpp:239-265, 384-407`): one cast is skipped. -/
def operand (P : Prog) (k : Nat) (rec : Nat → Cache → Out (CAV × Cache)) (gepOk : Bool) (v : Nat) (c : Cache) : Out (CAV × Cache) :=
  match P.kind v with
  | .cast _ _ u => operand' P k rec gepOk u c
  | _ => operand' P k rec gepOk v c

/-- The switch of `handleBinaryOperator` (`LLVMPathConstraints.cpp:416-459`). -/
def binE : BOp → E → E → Out E
  | .add, a, b => mkAr .add a b
  | .sub, a, b => mkAr .sub a b
  | .mul, a, b => mkAr .mul a b
  | .udiv, a, b => mkAr .div a b
  | .sdiv, a, b => mkAr .div a b
  | .urem, a, b => mkAr .rem a b
  | .srem, a, b => mkAr .rem a b
  | .shl, a, b => mkSh .shl a b
  | .lshr, a, b => mkSh .lshr a b
  | .ashr, a, b => mkSh .ashr a b
  | .and, a, b => mkLo .and a b
  | .or, a, b => mkLo .or a b
  | .xor, a, b => mkLo .xor a b

/-- `handleBinaryOperator` (`LLVMPathConstraints.cpp:375-462`).  The first argument bounds the recursion. -/
def handleBin (P : Prog) : Nat → Nat → Cache → Out (CAV × Cache)
  | 0, _, _ => .more
  | k + 1, v, c =>
    match c v with
    | some e => .ok (e, c)
    | none => match P.kind v with
      | .bin o l r =>
        (operand P k (handleBin P k) false l c).bind fun a =>
        (operand P k (handleBin P k) false r a.2).bind fun b =>
        (binE o a.1.1 b.1.1).bind fun e => .ok (emplace b.2 v (e, a.1.2 ++ b.1.2))
      | _ => .fail

/-- The switch of `handleCmpInst` (`LLVMPathConstraints.cpp:271-369`). -/
def cmpE : Pred → E → E → Out E
  | .eq, a, b => mkRel .eq a b
  | .ne, a, b => mkRel .ne a b
  | .ugt, a, b => mkRel .gt a b
  | .uge, a, b => mkRel .ge a b
  | .ult, a, b => mkRel .lt a b
  | .ule, a, b => mkRel .le a b
  | .sgt, a, b => mkRel .gt a b
  | .sge, a, b => mkRel .ge a b
  | .slt, a, b => mkRel .lt a b
  | .sle, a, b => mkRel .le a b
  | .fcmp, _, _ => .fail

/-- `handleCmpInst` (`LLVMPathConstraints.cpp:229-373`). -/
def handleCmp (P : Prog) (k v : Nat) (c : Cache) : Out (CAV × Cache) :=
  match c v with
  | some e => .ok (e, c)
  | none => match P.kind v with
    | .cmp p l r =>
      (operand P k (handleBin P k) true l c).bind fun a =>
      (operand P k (handleBin P k) true r a.2).bind fun b =>
      (cmpE p a.1.1 b.1.1).bind fun e => .ok ((e, a.1.2 ++ b.1.2), b.2)
    | _ => .fail

/-- One incoming value of `handlePhiInstruction` (`LLVMPathConstraints.cpp:128-153`). -/
def phiIn (P : Prog) (k : Nat) (ty : E) (s : CAV × Cache) (i : Nat) : Out (CAV × Cache) :=
  let add (r : CAV × Cache) : Out (CAV × Cache) := (mkOr s.1.1 r.1.1).bind fun e => .ok ((e, s.1.2 ++ r.1.2), r.2)
  match P.kind i with
  | .constInt x =>
    if x.bits = 1 then add ((.boolV true, []), s.2) else if x.bits = 0 then add ((.boolV false, []), s.2) else add ((ty, []), s.2)
  | .load p => (getLoad P k i p s.2).bind add
  | .call f _ => (getCall f).bind fun e => add (e, s.2)
  | .cmp .. => (handleCmp P k i s.2).bind add
  | _ => .fail

/-- The loop of `handlePhiInstruction` (`LLVMPathConstraints.cpp:128-154`). -/
def phiLoop (P : Prog) (k : Nat) (ty : E) : List Nat → CAV × Cache → Out (CAV × Cache)
  | [], s => .ok s
  | i :: is, s => (phiIn P k ty s i).bind (phiLoop P k ty is)

/-- `handlePhiInstruction` (`LLVMPathConstraints.cpp:99-156`). -/
def handlePhi (P : Prog) (k v : Nat) (c : Cache) : Out (CAV × Cache) :=
  match c v with
  | some e => .ok (e, c)
  | none => match P.kind v with
    | .phi ty ins => (constOf "PHI" ty).bind fun t => (phiLoop P k t ins ((.boolV true, []), c)).bind fun s => .ok (emplace s.2 v s.1)
    | _ => .fail

/-- The lambda `GetFirstInst` (`LLVMPathConstraints.cpp:171-178`). -/
def firstInst (P : Prog) (ign : Bool) (b : Nat) : Option Nat :=
  match P.block b with
  | [] => none
  | i :: is => if ign && P.dbg i then is.find? (fun j => !P.dbg j) else some i

/-- The pattern of the first three cases of `handleCondBrInst` (`LLVMPathConstraints.cpp:180-209`); `none` if the statement is the first of
neither target. -/
def bothWays (P : Prog) (ign : Bool) (t f succ : Nat) (r : Out (CAV × Cache)) : Option (Out (CAV × Cache)) :=
  if firstInst P ign t = some succ then some r
  else if firstInst P ign f = some succ then some (r.bind fun e => (mkNot e.1.1).bind fun n => .ok ((n, e.1.2), e.2))
  else none

/-- `handleCondBrInst` (`LLVMPathConstraints.cpp:158-227`). -/
def handleCondBr (P : Prog) (k : Nat) (ign : Bool) (br cond t f succ : Nat) (c : Cache) : Out (CAV × Cache) :=
  match c br with
  | some e => .ok (e, c)
  | none => match P.kind cond with
    | .cmp .. => (bothWays P ign t f succ (handleCmp P k cond c)).getD .fail
    | .bin .. => (bothWays P ign t f succ (handleBin P k cond c)).getD .fail
    | .call g _ => (bothWays P ign t f succ ((getCall g).bind fun e => .ok (e, c))).getD .fail
    | .cast .trunc w v =>
      if w = 1 then
        match P.kind v with
        | .load p => (getLoad P k v p c).bind fun e => (mkOdd e.1.1).bind fun o => .ok ((o, e.1.2), e.2)
        | _ => .fail
      else .fail
    | .phi .. => handlePhi P k cond c
    | _ => .fail

/-- `LLVMBasedCFG::isBranchTarget` (`LLVMBasedCFG.cpp:215-225`) for a conditional branch. -/
def isTarget (P : Prog) (t f to : Nat) : Bool := (P.block t).head? == some to || (P.block f).head? == some to

/-- Going back to the start of the block (`LLVMPathConstraints.cpp:30-38`). -/
def rewind (P : Prog) (ign : Bool) (to : Nat) : Nat :=
  let prevs := (P.block (P.parent to)).takeWhile (· ≠ to)
  ((if ign then prevs.find? fun j => !P.dbg j else prevs.head?)).getD to

/-- `getConstraintAndVariablesFromEdge` (`LLVMPathConstraints.cpp:21-45, 57-70`).  Simplified: the order of the variables is not modelled,
sorting and removing equal neighbours is removing duplicates. -/
def edge (P : Prog) (k : Nat) (ign : Bool) (a b : Nat) (c : Cache) : Out (Option CAV × Cache) :=
  match P.br a with
  | none => .ok (none, c)
  | some (cond, t, f) =>
    let to := rewind P ign b
    if isTarget P t f to then (handleCondBr P k ign a cond t f to c).bind fun e => .ok (some (e.1.1, e.1.2.eraseDups), e.2)
    else .ok (none, c)

/-! ## Specification: Z3 -/

/-- Specification: the name of a local variable: the name in the debug information, else the one in the IR, else the empty string. -/
def srcName (dbg name : Option String) : String := (dbg.or name).getD ""

/-- Specification: the first allocas and GEPs that are found when the operands of a value are followed. -/
inductive BaseOf (P : Prog) : Nat → Nat → Prop
  | alloca {v d n t} : P.kind v = .alloca d n t → BaseOf P v v
  | gep {v n i t ops} : P.kind v = .gep n i t ops → BaseOf P v v
  | opnd {v u b} : (∀ d n t, P.kind v ≠ .alloca d n t) → (∀ n i t ops, P.kind v ≠ .gep n i t ops) → u ∈ opsOf (P.kind v) → BaseOf P u b →
      BaseOf P v b

/-- Specification: a model of Z3.  It chooses the values of constants and of divisions by zero. -/
structure Mdl where
  bool : String → Bool
  int : String → Int
  bv : String → BitVec 64
  div0 : Int → Int
  rem0 : Int → Int

/-- Specification: values of Z3. -/
inductive ZV where
  | bool (b : Bool)
  | int (i : Int)
  | bv (x : BitVec 64)
deriving DecidableEq

/-- Specification: arithmetic on integers (SMT-LIB; Z3's `rem` has the sign of the divisor). -/
def zInt (m : Mdl) : AOp → Int → Int → Int
  | .add, a, b => a + b
  | .sub, a, b => a - b
  | .mul, a, b => a * b
  | .div, a, b => if b = 0 then m.div0 a else a / b
  | .rem, a, b => if b = 0 then m.rem0 a else if 0 ≤ b then a % b else - (a % b)

/-- Specification: arithmetic on bit vectors (SMT-LIB). -/
def zBv : AOp → BitVec 64 → BitVec 64 → BitVec 64
  | .add, a, b => a + b
  | .sub, a, b => a - b
  | .mul, a, b => a * b
  | .div, a, b => a.smtSDiv b
  | .rem, a, b => a.srem b

/-- Specification: relations on integers. -/
def zRelI : ROp → Int → Int → Bool
  | .eq, a, b => decide (a = b)
  | .ne, a, b => decide (a ≠ b)
  | .gt, a, b => decide (b < a)
  | .ge, a, b => decide (b ≤ a)
  | .lt, a, b => decide (a < b)
  | .le, a, b => decide (a ≤ b)

/-- Specification: the value of an expression.  For expressions of wrong sorts it means nothing. -/
def E.eval (m : Mdl) : E → ZV
  | .const .bool n => .bool (m.bool n)
  | .const .int n => .int (m.int n)
  | .const .bv n => .bv (m.bv n)
  | .intV i => .int i
  | .bvV b => .bv b
  | .boolV b => .bool b
  | .ar o a b => match a.eval m, b.eval m with
    | .int x, .int y => .int (zInt m o x y)
    | .bv x, .bv y => .bv (zBv o x y)
    | x, _ => x
  | .lo o a b => match o, a.eval m, b.eval m with
    | .and, .bool x, .bool y => .bool (x && y)
    | .or, .bool x, .bool y => .bool (x || y)
    | .xor, .bool x, .bool y => .bool (x ^^ y)
    | .and, .bv x, .bv y => .bv (x &&& y)
    | .or, .bv x, .bv y => .bv (x ||| y)
    | .xor, .bv x, .bv y => .bv (x ^^^ y)
    | _, x, _ => x
  | .sh o a b => match o, a.eval m, b.eval m with
    | .shl, .bv x, .bv y => .bv (x <<< y)
    | .lshr, .bv x, .bv y => .bv (x >>> y)
    | .ashr, .bv x, .bv y => .bv (x.sshiftRight' y)
    | _, x, _ => x
  | .rel o a b => match a.eval m, b.eval m with
    | .int x, .int y => .bool (zRelI o x y)
    | .bv x, .bv y => .bool (zRelI o x.toInt y.toInt)
    | .bool x, .bool y => .bool (if o = .ne then x != y else x == y)
    | _, _ => .bool false
  | .not a => match a.eval m with
    | .bool x => .bool (!x)
    | x => x
  | .or a b => match a.eval m, b.eval m with
    | .bool x, .bool y => .bool (x || y)
    | x, _ => x
  | .odd a => match a.eval m with
    | .int x => .bool (decide (x % 2 = 1))
    | .bv x => .bool (decide (x % 2 = 1))
    | x => x

/-- Specification: a model satisfies a constraint. -/
def Holds (m : Mdl) (e : E) : Prop := e.eval m = .bool true

/-! ## Specification: LLVM IR -/

/-- Specification: binary operators (LangRef).  `none`: undefined behaviour or poison. -/
def BOp.sem (o : BOp) {w : Nat} (x y : BitVec w) : Option (BitVec w) :=
  match o with
  | .add => some (x + y)
  | .sub => some (x - y)
  | .mul => some (x * y)
  | .udiv => if y = 0 then none else some (x / y)
  | .sdiv => if y = 0 ∨ (x = BitVec.intMin w ∧ y = -1) then none else some (x.sdiv y)
  | .urem => if y = 0 then none else some (x % y)
  | .srem => if y = 0 ∨ (x = BitVec.intMin w ∧ y = -1) then none else some (x.srem y)
  | .shl => if y.toNat < w then some (x <<< y) else none
  | .lshr => if y.toNat < w then some (x >>> y) else none
  | .ashr => if y.toNat < w then some (x.sshiftRight' y) else none
  | .and => some (x &&& y)
  | .or => some (x ||| y)
  | .xor => some (x ^^^ y)

/-- Specification: comparisons of integers and pointers (LangRef). -/
def Pred.sem (p : Pred) {w : Nat} (x y : BitVec w) : Bool :=
  match p with
  | .eq => x == y
  | .ne => x != y
  | .ugt => y.ult x
  | .uge => y.ule x
  | .ult => x.ult y
  | .ule => x.ule y
  | .sgt => y.slt x
  | .sge => y.sle x
  | .slt => x.slt y
  | .sle => x.sle y
  | .fcmp => false

/-- Specification: casts (LangRef). -/
def Cast.sem (c : Cast) (w : Nat) (x y : LV) : Prop :=
  match c with
  | .sext => x.w < w ∧ y = ⟨x.bits.signExtend w⟩
  | .zext => x.w < w ∧ y = ⟨x.bits.setWidth w⟩
  | .trunc => w < x.w ∧ y = ⟨x.bits.setWidth w⟩
  | .bits => y = x

/-- Specification: the value of `v` is what its operands say.  Nothing is said about loads, calls,
phis and floating-point values. -/
def At (P : Prog) (ρ : Nat → LV) (v : Nat) : Prop :=
  match P.kind v with
  | .constInt x => ρ v = x
  | .null => ρ v = ⟨(0 : BitVec 64)⟩
  | .cast c w u => c.sem w (ρ u) (ρ v)
  | .bin o l r => ∃ w, ∃ x y z : BitVec w, ρ l = ⟨x⟩ ∧ ρ r = ⟨y⟩ ∧ o.sem x y = some z ∧ ρ v = ⟨z⟩
  | .cmp p l r => p ≠ .fcmp → ∃ w, ∃ x y : BitVec w, ρ l = ⟨x⟩ ∧ ρ r = ⟨y⟩ ∧ ρ v = ⟨BitVec.ofBool (p.sem x y)⟩
  | _ => True

/-- Specification: the values that `c` is computed from. -/
inductive Uses (P : Prog) (c : Nat) : Nat → Prop
  | self : Uses P c c
  | cast {v k w u} : Uses P c v → P.kind v = .cast k w u → Uses P c u
  | binL {v o l r} : Uses P c v → P.kind v = .bin o l r → Uses P c l
  | binR {v o l r} : Uses P c v → P.kind v = .bin o l r → Uses P c r
  | cmpL {v p l r} : Uses P c v → P.kind v = .cmp p l r → Uses P c l
  | cmpR {v p l r} : Uses P c v → P.kind v = .cmp p l r → Uses P c r

/-- Specification: `ρ` has the values when the condition `c` is computed. -/
def Runs (P : Prog) (ρ : Nat → LV) (c : Nat) : Prop := ∀ v, Uses P c v → At P ρ v

/-- Specification: with the values `ρ` the conditional branch `a` goes on to the block of `b`. -/
def Takes (P : Prog) (ρ : Nat → LV) (a b : Nat) : Prop :=
  ∀ c t f, P.br a = some (c, t, f) → Runs P ρ c ∧ ((ρ c = ⟨(1 : BitVec 1)⟩ ∧ P.parent b = t) ∨ (ρ c = ⟨(0 : BitVec 1)⟩ ∧ P.parent b = f))

/-! ## Specification: conditions that are translated exactly -/

/-- Specification: an operand with the signed value of `l'`, itself or behind a cast. -/
inductive Arg (P : Prog) (ρ : Nat → LV) : Nat → Nat → Prop
  | same {l} : Arg P ρ l l
  | cast {l c w l'} : P.kind l = .cast c w l' → (ρ l).bits.toInt = (ρ l').bits.toInt → Arg P ρ l l'

/-- Specification: the operator computes on the signed values as on mathematical integers: no signed overflow, no division of negative
numbers or by them. -/
def NoWrap (o : BOp) {w : Nat} (x y : BitVec w) : Prop :=
  match o with
  | .add => x.saddOverflow y = false
  | .sub => x.ssubOverflow y = false
  | .mul => x.smulOverflow y = false
  | .udiv | .sdiv | .urem | .srem => 0 ≤ x.toInt ∧ 0 < y.toInt
  | _ => False

/-- Specification: an integer that is computed from constants, variables, elements and results of calls, whose signed values are the ones
in `m`, without wrapping. -/
inductive Num (P : Prog) (ρ : Nat → LV) (m : Mdl) : Nat → Prop
  | const {v x} : P.kind v = .constInt x → x.w ≤ 64 → Num P ρ m v
  | var {v p d n w} : P.kind v = .load p → P.kind p = .alloca d n (.int w) → w ≠ 1 → (ρ v).bits.toInt = m.int (srcName d n) → Num P ρ m v
  | elem {v p n i w ops} : P.kind v = .load p → P.kind p = .gep n i (.int w) ops → w ≠ 1 → (ρ v).bits.toInt = m.int (gepName n i) →
      Num P ρ m v
  | call {v n w i ops} : P.kind v = .call (some ⟨some n, .int w, i⟩) ops → w ≠ 1 → (ρ v).bits.toInt = m.int n → Num P ρ m v
  | bin {v o l r l' r'} : P.kind v = .bin o l r → Arg P ρ l l' → Num P ρ m l' → Arg P ρ r r' → Num P ρ m r' →
      (∀ w, ∀ x y : BitVec w, ρ l = ⟨x⟩ → ρ r = ⟨y⟩ → NoWrap o x y) → Num P ρ m v

/-- Specification: a Boolean that is computed from variables, elements and results of calls with the values in `m`. -/
inductive Flag (P : Prog) (ρ : Nat → LV) (m : Mdl) : Nat → Prop
  | var {v p d n} : P.kind v = .load p → P.kind p = .alloca d n (.int 1) → ρ v = ⟨BitVec.ofBool (m.bool (srcName d n))⟩ → Flag P ρ m v
  | elem {v p n i ops} : P.kind v = .load p → P.kind p = .gep n i (.int 1) ops → ρ v = ⟨BitVec.ofBool (m.bool (gepName n i))⟩ → Flag P ρ m v
  | call {v n i ops} : P.kind v = .call (some ⟨some n, .int 1, i⟩) ops → ρ v = ⟨BitVec.ofBool (m.bool n)⟩ → Flag P ρ m v
  | bin {v o l r} : P.kind v = .bin o l r → o = .and ∨ o = .or ∨ o = .xor → Flag P ρ m l → Flag P ρ m r → Flag P ρ m v

/-- Specification: a pointer that is null, or a variable, an element or the result of a call with the value in `m`. -/
inductive Ptr (P : Prog) (ρ : Nat → LV) (m : Mdl) : Nat → Prop
  | null {v} : P.kind v = .null → Ptr P ρ m v
  | var {v p d n} : P.kind v = .load p → P.kind p = .alloca d n .ptr → ρ v = ⟨m.bv (srcName d n)⟩ → Ptr P ρ m v
  | elem {v p n i ops} : P.kind v = .load p → P.kind p = .gep n i .ptr ops → ρ v = ⟨m.bv (gepName n i)⟩ → Ptr P ρ m v
  | call {v n i ops} : P.kind v = .call (some ⟨some n, .ptr, i⟩) ops → ρ v = ⟨m.bv n⟩ → Ptr P ρ m v

/-- Specification: unsigned comparisons. -/
def Pred.unsigned : Pred → Bool
  | .ugt | .uge | .ult | .ule => true
  | _ => false

/-- Specification: a condition whose translation means what the condition says. -/
inductive Good (P : Prog) (ρ : Nat → LV) (m : Mdl) (c : Nat) : Prop
  | num {p l r l' r'} : P.kind c = .cmp p l r → p ≠ .fcmp → Arg P ρ l l' → Num P ρ m l' → Arg P ρ r r' → Num P ρ m r' →
      (p.unsigned = true → ∀ w, ∀ x y : BitVec w, ρ l = ⟨x⟩ → ρ r = ⟨y⟩ → x.msb = y.msb) → Good P ρ m c
  | ptr {p l r} : P.kind c = .cmp p l r → p ≠ .fcmp → Ptr P ρ m l → Ptr P ρ m r →
      (p.unsigned = true → ∀ w, ∀ x y : BitVec w, ρ l = ⟨x⟩ → ρ r = ⟨y⟩ → x.msb = y.msb) → Good P ρ m c
  | flags {p l r} : P.kind c = .cmp p l r → p = .eq ∨ p = .ne → Flag P ρ m l → Flag P ρ m r → Good P ρ m c
  | logic {o l r} : P.kind c = .bin o l r → Flag P ρ m c → Good P ρ m c
  | call {f ops} : P.kind c = .call f ops → Flag P ρ m c → Good P ρ m c

/-- Specification: statements belong to the blocks that list them. -/
def Blocks (P : Prog) : Prop := ∀ B, ∀ i ∈ P.block B, P.parent i = B

/-- Specification: conditional branches are instructions of no other kind. -/
def WF (P : Prog) : Prop := ∀ a x, P.br a = some x → ∃ ops, P.kind a = .inst ops

/-- Specification: the caches that translations leave behind. -/
inductive Reached (P : Prog) : Cache → Prop
  | new : Reached P (fun _ => none)
  | step {k ign a b c r c'} : Reached P c → edge P k ign a b c = .ok (r, c') → Reached P c'

/-- Specification: the constraint of an edge, computed without an earlier one; as `Constr` of C54. -/
def conOf (P : Prog) (k : Nat) (ign : Bool) : PathFilter.Constr Nat E := fun a b =>
  match edge P k ign a b (fun _ => none) with
  | .ok (r, _) => r
  | _ => none

/-- Specification: an edge on which the constraint does not get in the way of the values `ρ`: the condition is translated exactly, or it is a
phi, or a truncated variable that is odd. -/
inductive Fair (P : Prog) (ρ : Nat → LV) (m : Mdl) (c : Nat) : Prop
  | good : Good P ρ m c → Fair P ρ m c
  | phi {ty ins} : P.kind c = .phi ty ins → Fair P ρ m c
  | odd {v p} : P.kind c = .cast .trunc 1 v → P.kind v = .load p → Num P ρ m v → ρ c = ⟨(1 : BitVec 1)⟩ → Fair P ρ m c

/-- Specification: the constants of an expression. -/
def E.consts : E → List String
  | .const _ n => [n]
  | .ar _ a b | .lo _ a b | .sh _ a b | .rel _ a b | .or a b => a.consts ++ b.consts
  | .not a | .odd a => a.consts
  | _ => []

/-- Specification: a value the constant of this name stands for. -/
def Names (P : Prog) (v : Nat) (n : String) : Prop :=
  (∃ d i t, P.kind v = .alloca d i t ∧ n = srcName d i) ∨ (∃ s i t ops, P.kind v = .gep s i t ops ∧ n = gepName s i) ∨
    ∃ u f ops, P.kind u = .call (some f) ops ∧ f.id = v ∧ f.name = some n

end Phasar.PathConstr
