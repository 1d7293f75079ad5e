import Verif.EdgeFn.Domain
/-!
# The linear constant analysis

Model of `lib/PhasarLLVM/DataFlow/IfdsIde/Problems/IDELinearConstantAnalysis.cpp`: constant folding and edge functions.
-/
namespace Phasar.LCA
open JoinLat

/-- The values: `LatticeDomain<int64_t>` (`IDELinearConstantAnalysis.cpp:53`, domain in `IDELinearConstantAnalysis.h`).  An
`int64_t` is its 64-bit two's complement representation. -/
abbrev V := LatticeDomain (BitVec 64)

/-- The opcodes distinguished in `executeBinOperation` (`IDELinearConstantAnalysis.cpp:113-162`); `other` stands for all
other binary operators (shifts and floating point). -/
inductive Op where
  | add | sub | mul | udiv | sdiv | urem | srem | and | or | xor | other
deriving DecidableEq, Repr

/-- A signed computation whose exact result is `s`: the bottom value if it does not fit into `int64_t`.  Models
`llvm::AddOverflow`, `SubOverflow`, `MulOverflow` (`llvm/Support/MathExtras.h`) and the use at
`IDELinearConstantAnalysis.cpp:114-130`. -/
def checked (s : Int) : V :=
  if s < -9223372036854775808 ∨ 9223372036854775807 < s then .bottom else .val (BitVec.ofInt 64 s)

/-- `executeBinOperation` on two constants (`IDELinearConstantAnalysis.cpp:108-162`).  `none` is undefined behaviour: signed
remainder of the smallest value by -1.  C++ `/` and `%` truncate towards zero. -/
def foldConst (op : Op) (a b : BitVec 64) : Option V :=
  match op with
  | .add => some (checked (a.toInt + b.toInt))
  | .sub => some (checked (a.toInt - b.toInt))
  | .mul => some (checked (a.toInt * b.toInt))
  | .udiv | .sdiv =>
    if a = BitVec.intMin 64 ∧ b = -1#64 then some .bottom
    else if b = 0#64 then some .bottom
    else some (.val (BitVec.ofInt 64 (a.toInt.tdiv b.toInt)))
  | .urem | .srem =>
    if b = 0#64 then some .bottom
    else if a = BitVec.intMin 64 ∧ b = -1#64 then none
    else some (.val (BitVec.ofInt 64 (a.toInt.tmod b.toInt)))
  | .and => some (.val (a &&& b))
  | .or => some (.val (a ||| b))
  | .xor => some (.val (a ^^^ b))
  | .other => some .bottom

/-- `executeBinOperation` (`IDELinearConstantAnalysis.cpp:100-163`). -/
def execute (op : Op) (l r : V) : Option V :=
  match l, r with
  | .val a, .val b => foldConst op a b
  | _, _ => some .bottom

/-- The `const llvm::Value *` used as facts and operands: the zero value, a `ConstantInt` (represented by its
`getSExtValue()`), or any other value.  Simplification: two `ConstantInt`s of different types with the same value are
identified. -/
inductive Val where
  | zero
  | const (c : BitVec 64)
  | node (n : Nat)
deriving DecidableEq, Repr

/-- `llvm::dyn_cast<llvm::ConstantInt>(V)` followed by `getSExtValue()` (`IDELinearConstantAnalysis.cpp:209-224`). -/
def Val.constInt? : Val → Option (BitVec 64)
  | .const c => some c
  | _ => none

/-- `struct BinOp` (`IDELinearConstantAnalysis.cpp:190-198`), without the debug number. -/
structure BinOp where
  op : Op
  lop : Val
  rop : Val
  curr : Val
deriving DecidableEq, Repr

/-- `BinOp::computeTarget` (`IDELinearConstantAnalysis.cpp:200-229`); `none` is undefined behaviour or
`report_fatal_error`. -/
def BinOp.ap (b : BinOp) (s : V) : Option V :=
  match decide (b.curr = .zero), b.lop.constInt?, b.rop.constInt? with
  | true, some l, some r => execute b.op (.val l) (.val r)
  | _, l?, r? =>
    if s = .bottom then some s
    else match decide (b.lop = b.curr), r? with
      | true, some r => execute b.op s (.val r)
      | _, _ => match decide (b.rop = b.curr), l? with
        | true, some l => execute b.op (.val l) s
        | _, _ => none

/-- `BinOp::operator==` (`IDELinearConstantAnalysis.cpp:249-251`): ignores `CurrNode`. -/
def BinOp.eq (a b : BinOp) : Bool := decide (a.op = b.op ∧ a.lop = b.lop ∧ a.rop = b.rop)

/-- The edge functions of the analysis: `EdgeIdentity`, `AllBottom`, `AllTop` (`EdgeFunctionUtils.h:23-120`),
`ConstantEdgeFunction` (`:152-216`; `gen` if it is the derived class `GenConstant`, `IDELinearConstantAnalysis.cpp:77`),
`BinOp` (`:190`) and `LCAEdgeFunctionComposer` (`:60`). -/
inductive EF where
  | id
  | allBottom
  | allTop
  | const (gen : Bool) (c : BitVec 64)
  | bin (b : BinOp)
  | comp (f g : EF)
deriving DecidableEq, Repr

/-- `computeTarget` (`EdgeFunctionUtils.h:26-31, 51-60, 91-100, 157-161, 246-248`, `IDELinearConstantAnalysis.cpp:200-229`). -/
def EF.ap : EF → V → Option V
  | .id, x => some x
  | .allBottom, _ => some .bottom
  | .allTop, _ => some .top
  | .const _ c, _ => some (.val c)
  | .bin b, x => b.ap x
  | .comp f g, x => (f.ap x).bind g.ap

/-- `operator==` on handles (`EdgeFunction.h:426-436`): same dynamic type and equal values; the composer compares its parts
(`EdgeFunctionUtils.h:280-284`). -/
def EF.eq : EF → EF → Bool
  | .id, .id => true
  | .allBottom, .allBottom => true
  | .allTop, .allTop => true
  | .const g c, .const g' c' => g == g' && c == c'
  | .bin b, .bin b' => b.eq b'
  | .comp f g, .comp f' g' => f.eq f' && g.eq g'
  | _, _ => false

/-- `isConstant` (`EdgeFunctionUtils.h:73, 113, 211`; default false, `EdgeFunction.h:555-559`). -/
def EF.isConstant : EF → Bool
  | .allBottom | .allTop | .const _ _ => true
  | _ => false

/-- `isa<EdgeIdentity>`. -/
def EF.isId : EF → Bool
  | .id => true
  | _ => false

/-- `defaultComposeOrNull` (`EdgeFunctionUtils.h:122-133`). -/
def EF.defaultCompose (this second : EF) : Option EF :=
  if second.isId then some this else if second.isConstant then some second else none

/-- `composeWith` (`EdgeFunction.h:348-350`) with the `compose` of the types: `EdgeIdentity` (`EdgeFunctionUtils.h:33-37`),
`AllBottom` (`:61-65`), `AllTop` (`:101-105`), `ConstantEdgeFunction` (`:163-203`), `BinOp`
(`IDELinearConstantAnalysis.cpp:231-239`), the composer (`EdgeFunctionUtils.h:257-267`).  `none`: `computeTarget` has no
result while composing a constant.  Simplification: the early return of `This` in the constant's case, `:173-177`, is only
compiled for large values and returns the same constant. -/
def EF.compose : EF → EF → Option EF
  | .id, g => some g
  | .allBottom, g => some (if g.isConstant then g else .allBottom)
  | .allTop, g => some (if g.isId then .allTop else g)
  | .const gen c, g => match EF.defaultCompose (.const gen c) g with
    | some r => some r
    | none => match g.ap (.val c) with
      | none => none
      | some .bottom => some .allBottom
      | some .top => some .allTop
      | some (.val v) => some (.const false v)
  | .bin b, g => match EF.defaultCompose (.bin b) g with
    | some r => some r
    | none => some (.comp (.bin b) g)
  | .comp a b, g => match EF.defaultCompose (.comp a b) g with
    | some r => some r
    | none => (b.compose g).bind a.compose

/-- `isa<AllBottom>`, `isa<AllTop>`. -/
def EF.isBot : EF → Bool
  | .allBottom => true
  | _ => false

/-- See `EF.isBot`. -/
def EF.isTop : EF → Bool
  | .allTop => true
  | _ => false

/-- `defaultJoinOrNull<L, 0>` (`EdgeFunctionUtils.h:410-427`); the lattice has `JoinLatticeTraits`. -/
def EF.defaultJoin (this other : EF) : Option EF :=
  if other.isBot then some other
  else if other.isTop || other.eq this then some this
  else if other.isId then some .allBottom
  else none

/-- `BinOp::join` (`IDELinearConstantAnalysis.cpp:241-247`) and `LCAEdgeFunctionComposer::join` (`:62-68`). -/
def EF.joinLin (this other : EF) : EF :=
  match EF.defaultJoin this other with
  | some r => r
  | none => .allBottom

/-- `ConstantEdgeFunction::join` (`EdgeFunctionUtils.h:464-505`).  The identity is treated by `defaultJoin`; a function that
is not constant is a `BinOp` or a composer, whose `join` is called with the arguments swapped. -/
def EF.joinConst (gen : Bool) (c : BitVec 64) (other : EF) : EF :=
  match EF.defaultJoin (.const gen c) other with
  | some r => r
  | none => match other with
    | .const _ c' => match LatticeDomain.join (.val c) (.val c') with
      | .val v => .const false v
      | _ => .allBottom
    | .bin b => EF.joinLin (.bin b) (.const gen c)
    | .comp f g => EF.joinLin (.comp f g) (.const gen c)
    | _ => .allBottom

/-- `joinWith` (`EdgeFunction.h:381-387`) with the `join` of the types: `EdgeIdentity` (`EdgeFunctionUtils.h:449-462`),
`AllBottom` (`:67-71`), `AllTop` (`:107-111`), and the above. -/
def EF.joinWith : EF → EF → EF
  | .id, g => match g with
    | .id => .id
    | .allTop => .id
    | .allBottom => .allBottom
    | .const gen c => EF.joinConst gen c .id
    | g => EF.joinLin g .id
  | .allBottom, _ => .allBottom
  | .allTop, g => g
  | .const gen c, g => EF.joinConst gen c g
  | f, g => EF.joinLin f g

/-- The condition under which the flow function of a binary operator generates the instruction from a fact
(`IDELinearConstantAnalysis.cpp:337-343`, also `:437-443`). -/
def generates (lop rop src : Val) : Bool :=
  decide (lop = src) || decide (rop = src) || (decide (src = .zero) && lop.constInt?.isSome && rop.constInt?.isSome)

/-- `getNormalEdgeFunction` for a binary operator `Curr` with `SuccNode == Curr != CurrNode`
(`IDELinearConstantAnalysis.cpp:506-521`); `getSummaryEdgeFunction` (`:565-586`) does the same for arithmetic intrinsics. -/
def binEdge (op : Op) (lop rop curr : Val) : EF :=
  if (curr = lop ∧ rop.constInt? = none) ∨ (curr = rop ∧ lop.constInt? = none) then .allBottom
  else .bin ⟨op, lop, rop, curr⟩

/-! ### Specification -/

/-- What the LLVM instruction computes on `w`-bit integers (LLVM language reference, "Binary Operations"); `none` is
undefined behaviour.  Flags (`nsw`, `exact`, ...) only make more executions undefined. -/
def llvm {w : Nat} (op : Op) (x y : BitVec w) : Option (BitVec w) :=
  match op with
  | .add => some (x + y)
  | .sub => some (x - y)
  | .mul => some (x * y)
  | .udiv => if y = 0#w then none else some (x / y)
  | .sdiv => if y = 0#w ∨ (x = BitVec.intMin w ∧ y = -1#w) then none else some (x.sdiv y)
  | .urem => if y = 0#w then none else some (x % y)
  | .srem => if y = 0#w ∨ (x = BitVec.intMin w ∧ y = -1#w) then none else some (x.srem y)
  | .and => some (x &&& y)
  | .or => some (x ||| y)
  | .xor => some (x ^^^ y)
  | .other => none

end Phasar.LCA
