/-
Model of the value sets of the generalized linear constant analysis.

Sources (all below lib/PhasarLLVM/DataFlow/IfdsIde/Problems/IDEGeneralizedLCA):
  EdgeValue.cpp, EdgeValueSet.cpp, BinaryEdgeFunction.cpp, TypecastEdgeFunction.cpp
and include/phasar/PhasarLLVM/DataFlow/IfdsIde/Problems/IDEGeneralizedLCA/EdgeValue.h,
EdgeValueSet.h, IDEGeneralizedLCADomain.h.

`none` is the outcome "failed assertion or undefined behaviour".
-/
namespace Phasar.GLCA

/-- The floating-point side (llvm::APFloat), left abstract: whatever APFloat computes, the
statements about sets hold.  `same a b` is "equal hash and `operator==`"
(EdgeValue.cpp:219-230 and EdgeValue.h:126-128); it need not be transitive or even reflexive.
The arithmetic is partial because APFloat asserts equal semantics of its operands.  `toBits`
is `convertToInteger` (EdgeValue.cpp:478-487) and `ofInt` the conversions of
EdgeValue.cpp:494-497 (the flag is `Bits > 32`). -/
structure FP where
  F : Type
  same : F → F → Bool
  add : F → F → Option F
  sub : F → F → Option F
  mul : F → F → Option F
  div : F → F → Option F
  rem : F → F → Option F
  toBits : F → (w : Nat) → BitVec w
  ofInt : Bool → Int → F

/-- EdgeValue.h: `Type` and `ValVariant`: Top, Integer (an APInt with its width),
FloatingPoint, String.  The name `Top` is the code's; it means "unknown value" and is the
bottom of the solver's lattice. -/
inductive EV (P : FP) where
  | top
  | int (w : Nat) (v : BitVec w)
  | fp (x : P.F)
  | str (s : String)

/-- llvm::BinaryOperator::BinaryOps (the 18 binary opcodes of LLVM IR). -/
inductive Op where
  | add | fadd | sub | fsub | mul | fmul | udiv | sdiv | fdiv | urem | srem | frem
  | shl | lshr | ashr | and | or | xor
  deriving DecidableEq, Repr

variable {P : FP}

/-- The `Integer` case of the binary operators, for two APInts of the same width:
EdgeValue.cpp operator+ 249-251, operator- 267-269 (subtracts the left operand from
itself), operator* 283-285, operator/ 299-301, operator% 315-317, operator& 333-335,
operator| 346-348, operator^ 359-361, operator<< 372-374, operator>> 383-385, and the inline
cases LShr/UDiv/URem of performBinOp 526-528, 551-553, 563-565.
APInt's divisions assert a non-zero divisor; APInt's shifts by at least the width give 0
(shl, lshr) or the sign (ashr), as the BitVec shifts do. -/
def intOp (op : Op) {w : Nat} (x y : BitVec w) : Option (BitVec w) :=
  match op with
  | .add | .fadd => some (x + y)
  | .sub | .fsub => some (x - x)
  | .mul | .fmul => some (x * y)
  | .sdiv | .fdiv => if y = 0#w then none else some (x.sdiv y)
  | .srem | .frem => if y = 0#w then none else some (x.srem y)
  | .udiv => if y = 0#w then none else some (x.udiv y)
  | .urem => if y = 0#w then none else some (x.umod y)
  | .and => some (x &&& y)
  | .or => some (x ||| y)
  | .xor => some (x ^^^ y)
  | .shl => some (x <<< y.toNat)
  | .lshr => some (x >>> y.toNat)
  | .ashr => some (x.sshiftRight y.toNat)

/-- The `FloatingPoint` case of the same operators; operators without such a case answer
`Top` (EdgeValue.cpp:243-390, 508-575). -/
def fpOp (op : Op) (x y : P.F) : Option (EV P) :=
  match op with
  | .add | .fadd => (P.add x y).map .fp
  | .sub | .fsub => (P.sub x y).map .fp
  | .mul | .fmul => (P.mul x y).map .fp
  | .sdiv | .fdiv => (P.div x y).map .fp
  | .srem | .frem => (P.rem x y).map .fp
  | _ => some .top

/-- `EdgeValue::performBinOp`, EdgeValue.cpp:508-575, with the operators 243-390.  Different
kinds give `Top`; two integers of different widths fail APInt's assertion. -/
def binOp1 (op : Op) : EV P → EV P → Option (EV P)
  | .int w x, .int w' y =>
      if h : w' = w then (intOp op x (h ▸ y)).map (.int w) else none
  | .fp x, .fp y => fpOp op x y
  | .str s, .str t =>
      match op with
      | .add | .fadd => some (.str (s ++ t))
      | _ => some .top
  | _, _ => some .top

/-- Key comparison of `std::unordered_set<EdgeValue>`: equal hash (EdgeValue.h:116-134) and
`operator==` (EdgeValue.cpp:208-236).  Two integers of different widths reach APInt's
`operator==`, which asserts equal widths, exactly if their hashes, i.e. their sign-extended
values, agree.  (libstdc++ caches and compares the hash first.  Simplified: the hash of an
integer wider than 64 bits, for which getSExtValue asserts, is taken to be its value, and
the hashes of integers, which are injective, are compared as values.) -/
def same : EV P → EV P → Option Bool
  | .top, .top => some true
  | .int w x, .int w' y =>
      if h : w' = w then some (decide (x = h ▸ y))
      else if x.toInt = y.toInt then none else some false
  | .fp x, .fp y => some (P.same x y)
  | .str s, .str t => some (decide (s = t))
  | _, _ => some false

/-- `EdgeValueSet::count`/`find`, EdgeValueSet.cpp:27-37. -/
def has : List (EV P) → EV P → Option Bool
  | [], _ => some false
  | e :: S, v =>
      match same e v with
      | none => none
      | some true => some true
      | some false => has S v

/-- `EdgeValueSet::insert`, EdgeValueSet.cpp:40-46.  The set is a list of its elements in
some order; nothing stated below depends on the order. -/
def insert (S : List (EV P)) (v : EV P) : Option (List (EV P)) :=
  match has S v with
  | none => none
  | some true => some S
  | some false => some (S ++ [v])

/-- `isTopValue`, EdgeValue.cpp:650. -/
def isTopValue : List (EV P) → Bool
  | [.top] => true
  | _ => false

/-- Range constructor `EdgeValueSet(Begin, End)`, EdgeValueSet.h:26-27. -/
def build : List (EV P) → List (EV P) → Option (List (EV P))
  | [], acc => some acc
  | v :: vs, acc => (insert acc v).bind (build vs)

/-- The insertion loop of `join`, EdgeValue.cpp:638-644. -/
def joinLoop (max : Nat) : List (EV P) → List (EV P) → Option (List (EV P))
  | [], acc => some acc
  | v :: vs, acc =>
      match insert acc v with
      | none => none
      | some acc' => if acc'.length > max then some [.top] else joinLoop max vs acc'

/-- `join`, EdgeValue.cpp:630-648. -/
def join (L R : List (EV P)) (max : Nat) : Option (List (EV P)) :=
  if isTopValue L || isTopValue R then some [.top]
  else (build L []).bind (joinLoop max R)

/-- The loops of the set version of `performBinOp`, EdgeValue.cpp:585-595, over the pairs in
iteration order. -/
def binLoop (op : Op) (max : Nat) :
    List (EV P × EV P) → List (EV P) → Option (List (EV P))
  | [], acc => some acc
  | (a, b) :: ps, acc =>
      match binOp1 op a b with
      | none => none
      | some z =>
        match insert acc z with
        | none => none
        | some acc' => if acc'.length > max then some [.top] else binLoop op max ps acc'

/-- `performBinOp` on sets, EdgeValue.cpp:577-598. -/
def performBinOp (op : Op) (L R : List (EV P)) (max : Nat) : Option (List (EV P)) :=
  if L.isEmpty || isTopValue L || R.isEmpty || isTopValue R then some [.top]
  else binLoop op max (L.flatMap fun a => R.map fun b => (a, b)) []

/-- Destination kind of a typecast: `Integer` or `FloatingPoint`; the edge functions are
created with these two only (IDEGeneralizedLCA.cpp:357-369). -/
inductive Dest where
  | integer | floating
  deriving DecidableEq, Repr

/-- `EdgeValue::typecast`, EdgeValue.cpp:468-506.  `(1 << Bits) - 1` is computed in `int`, so
`Bits ≥ 31` is undefined. -/
def typecast1 (d : Dest) (bits : Nat) : EV P → Option (EV P)
  | .int w x =>
      match d with
      | .integer =>
          if w ≤ bits then some (.int w x)
          else if 31 ≤ bits then none
          else some (.int w (x &&& BitVec.ofNat w (2 ^ bits - 1)))
      | .floating => some (.fp (P.ofInt (decide (32 < bits)) x.toInt))
  | .fp x =>
      match d with
      | .integer => some (.int bits (P.toBits x bits))
      | .floating => some (.fp x)
  | _ => some .top

/-- The loop of `performTypecast`, EdgeValue.cpp:606-612. -/
def castLoop (d : Dest) (bits : Nat) : List (EV P) → List (EV P) → Option (List (EV P))
  | [], acc => some acc
  | v :: vs, acc =>
      match typecast1 d bits v with
      | none => none
      | some .top => some [.top]
      | some z => (insert acc z).bind (castLoop d bits vs)

/-- `performTypecast`, EdgeValue.cpp:600-614. -/
def performTypecast (S : List (EV P)) (d : Dest) (bits : Nat) : Option (List (EV P)) :=
  if S.isEmpty || isTopValue S then some [.top] else castLoop d bits S []

/-- All elements of the left list are counted in the right one (loop of operator<,
EdgeValue.cpp:669-673; also the element test of std::unordered_set's operator==). -/
def allIn : List (EV P) → List (EV P) → Option Bool
  | [], _ => some true
  | e :: L, R =>
      match has R e with
      | none => none
      | some false => some false
      | some true => allIn L R

/-- `EdgeValueSet::operator==`, EdgeValueSet.cpp:48-50: same size and every element found. -/
def setEq (L R : List (EV P)) : Option Bool :=
  if L.length = R.length then allIn L R else some false

/-- `operator<` ("square subset"), EdgeValue.cpp:665-675. -/
def less (L R : List (EV P)) : Option Bool :=
  if R.length ≤ L.length then
    match setEq L R with
    | none => none
    | some true => some false
    | some false => if L.isEmpty then some true else setEq R [.top]
  else allIn L R

/-- `IDEGeneralizedLCADomain::MaxSetSize`, IDEGeneralizedLCADomain.h:21; also the literal 2
in `JoinLatticeTraits<EdgeValueSet>::join`, EdgeValueSet.h:53-55. -/
def domainMax : Nat := 2

/-- `BinaryEdgeFunction::computeTarget`, BinaryEdgeFunction.cpp:17-22. -/
def binaryTarget (op : Op) (const : List (EV P)) (leftConst : Bool) (src : List (EV P)) :
    Option (List (EV P)) :=
  if leftConst then performBinOp op const src domainMax
  else performBinOp op src const domainMax

end Phasar.GLCA
